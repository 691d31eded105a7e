import Verif.EspSystem.Props
import Verif.Timed.Props

/-!
# The whole application with a monotonic on ESP32-C3/C6: `Verif.EspSystem` and the timer queue

The machine of `Verif.EspSystem` (handlers, locks, one executor machine per dispatcher) together with the timer queue of `Verif.TimerQueue`, as `Verif.Timed` for the targets with BASEPRI: the timer interrupt handler is a handler of the first machine (`th`), it makes its accesses when it is on top of the
stack, and its interrupt is asserted while the interrupt line of the timer is; delays are created, polled and dropped by the running code, access by access, and can be preempted between any two of them (`rtic-time/src/timer_queue.rs:206-264`).

The timer interrupt has the highest priority, 15 (`rtic-monotonics/src/esp32c3.rs:64-71`, `esp32c6.rs`). It cannot be pended by software. `pend_interrupt` (`rtic-monotonics/src/esp32c3.rs:123-134`) disables interrupts, calls the handler like a function, and enables interrupts: step `pend` enters the handler inside the running code
(`inl`), the handler then makes the same steps as when entered by the interrupt, and `pendRet` returns.

Simplifications: those of the machines. The handler is not started through `run` (`rtic-monotonics/src/esp32c3.rs:153-165`); the two steps of `run`, which write back the threshold that was read, do nothing in it. For priority 15 the runtime leaves interrupts disabled instead of writing threshold 16, which does the same. The critical section of `pend_interrupt` is
that of `critical_section::with` (`.cs none false`); since `pend_interrupt` enables interrupts unconditionally, this is so only if interrupts were enabled before: step `pend` is limited to this case (delays are not polled inside a critical section). The handler calls wakers as caller number 0 (the others are numbered by their
depth on the stack, which is at least 1). A delay belongs to one task (`own`; what happens to futures that move is C68); the operations on delays of other code (`own` is no software task) are made by any user code.
-/

namespace Verif.EspTimed

open Verif
open Verif.Timed (opOf opStart waitsEx)

structure Cfg where
  sys : EspSystem.Cfg
  /-- the timer -/
  tb : TimerQueue.Cfg
  /-- the handler of the timer interrupt -/
  th : Nat
  /-- the task that owns a delay -/
  own : Nat → Nat

/-- The conditions under which the machine models an application: those of `Verif.Esp32`; the timer interrupt is used by the monotonic only and has priority 15 (`rtic-monotonics/src/esp32c3.rs:64-71`); the tasks have less (`rtic-macros/src/codegen/bindings/esp32c3.rs:106-107`); a task belongs to one dispatcher. -/
structure WellFormed (c : Cfg) : Prop where
  hw : Esp32.WellFormed c.sys.hw
  thread : c.sys.hw.prio 0 = 0
  th : c.sys.tasks c.th = none
  prioTh : c.sys.hw.prio c.th = 15
  prio : ∀ h, h ≠ c.th → c.sys.hw.prio h ≤ 14
  uniq : ∀ d ts d' ts' t, c.sys.tasks d = some ts → c.sys.tasks d' = some ts' → t ∈ ts → t ∈ ts' → d = d'
  width : 0 < c.tb.w

structure St where
  y : EspSystem.St
  tq : TimerQueue.St
  /-- the timer handler is inside the waker of a task of this dispatcher -/
  call : Option Nat
  /-- the running code is inside `pend_interrupt`, which has called the timer handler -/
  inl : Bool
  /-- bookkeeping for the specification, as in `Verif.Delay`: delay `i` returned `Pending` in the current or latest poll of its task, and has not been dropped -/
  waits : Nat → Bool

/-- the interrupt line of the timer is the interrupt line of its handler -/
def sync (c : Cfg) (y : EspSystem.St) (q : TimerQueue.St) : EspSystem.St := { y with pend := EspSystem.upd y.pend c.th q.irq }

/-- the body of task `t` is at the processor -/
def runsTask (c : Cfg) (s : St) (t : Nat) : Prop :=
  ∃ d ts rest, c.sys.tasks d = some ts ∧ t ∈ ts ∧ Esp32.top s.y.m.stack = some d ∧ (s.y.ex d).d = .body t rest

/-- `t` is a software task -/
def isTask (c : Cfg) (t : Nat) : Prop := ∃ d ts, c.sys.tasks d = some ts ∧ t ∈ ts

/-- the running task is not inside an operation on one of its delays -/
def noOp (c : Cfg) (s : St) : Prop := ∀ i, runsTask c s (c.own i) → s.tq.pc i = .none ∨ s.tq.pc i = .alive

inductive Act where
  /-- one tick of the clock, with the timer hardware raising its events -/
  | clock (m o p : Bool)
  /-- a step of `Verif.EspSystem` not concerning the timer -/
  | sys (a : EspSystem.Act)
  /-- the timer interrupt is taken -/
  | enter
  /-- the next step of the timer handler -/
  | hgo
  /-- `set_compare` of the handler; the backend arms the hardware for `x` -/
  | arm (x : Nat)
  /-- the handler calls the waker of a task -/
  | hcall
  /-- the next access of this waker -/
  | hacc
  /-- the waker returns -/
  | hret
  /-- running code makes an access of an operation on a delay, except `pend_interrupt` -/
  | op (a : TimerQueue.Act)
  /-- running code calls `pend_interrupt` after inserting delay `i` -/
  | pend (i : Nat)
  /-- `pend_interrupt` returns -/
  | pendRet

/-- does the running code make this step -/
def Act.own : Act → Bool
  | .clock _ _ _ | .enter => false
  | .sys a => a.own
  | _ => true

/-- exactly the steps of the clock, the peripherals and the interrupt controller are not made by running code -/
theorem Act.own_iff (a : Act) : a.own = true ↔ ¬ ((∃ m o p, a = .clock m o p) ∨ a = .enter ∨ ∃ h, a = .sys (.hw h) ∨ a = .sys (.unhw h) ∨ a = .sys (.irq h)) := by
  cases a with
  | sys a => cases a <;> simp [Act.own, EspSystem.Act.own]
  | _ => simp [Act.own]

/-- the handler started by a step -/
def Act.starts (c : Cfg) : Act → Option Nat
  | .enter => some c.th
  | .sys (.irq h) => some h
  | _ => none

/-- a step that the timer handler does not make -/
def userAct : EspSystem.Act → Bool
  | .spawn _ _ _ | .wake _ _ | .call _ | .code (.lock _) | .code .userCs => true
  | _ => false

def isPend : TimerQueue.Act → Bool
  | .pend _ => true
  | _ => false

/-- the timer handler is at the processor, entered by the interrupt or called by `pend_interrupt` -/
def inHandler (c : Cfg) (s : St) : Prop := EspSystem.quiet c.sys s.y ∧ ((∃ prev i rest, s.y.m.stack = .body c.th prev i :: rest) ∨ s.inl = true)

/-- Steps, with the events of the executors. -/
inductive Step (c : Cfg) (s : St) : Act → List (Nat × Executor.Ev) → St → Prop
  | clock (m o p q e) (hs : TimerQueue.step c.tb s.tq (.tick m o p) = some (q, e)) : Step c s (.clock m o p) [] { s with tq := q, y := sync c s.y q }
  /-- everything of `Verif.EspSystem`; the running code is not inside `pend_interrupt`, the running task is not inside an operation on a delay; the timer handler neither locks nor spawns, and returns at its end -/
  | sys (a ev y') (hs : EspSystem.Step c.sys s.y a ev y') (h1 : a ≠ .hw c.th) (h2 : a ≠ .unhw c.th) (h3 : a ≠ .irq c.th) (hin : a.own = true → s.inl = false) (hop : a.own = true → noOp c s) (hu : userAct a = true → Esp32.top s.y.m.stack ≠ some c.th)
      (hf : a = .code .finish → Esp32.top s.y.m.stack = some c.th → s.tq.h = .idle) : Step c s (.sys a) ev { s with y := y', waits := waitsEx c.own s.waits ev }
  | enter (y' q e) (hs : EspSystem.Step c.sys s.y (.irq c.th) [] y') (hq : TimerQueue.step c.tb s.tq .start = some (q, e)) : Step c s .enter [] { s with tq := q, y := sync c y' q }
  /-- `on_monotonic_interrupt`, `timer_queue.rs:100-138`, except for wakers of tasks -/
  | hgo (q e) (hh : inHandler c s) (hc : s.call = none) (hw : ∀ wk, s.tq.h = .h2 wk → ¬ isTask c wk) (hq : TimerQueue.step c.tb s.tq .hgo = some (q, e)) : Step c s .hgo [] { s with tq := q, y := sync c s.y q }
  | arm (x q e) (hh : inHandler c s) (hq : TimerQueue.step c.tb s.tq (.arm x) = some (q, e)) : Step c s (.arm x) [] { s with tq := q, y := sync c s.y q }
  /-- `link.waker.wake()`, `timer_queue.rs:117` -/
  | hcall (d ts wk e' ev) (hh : inHandler c s) (hc : s.call = none) (hw : s.tq.h = .h2 wk) (hd : c.sys.tasks d = some ts) (hwk : wk ∈ ts) (hs : Executor.step (c.sys.exec d ts) (s.y.ex d) (.callWake 0 wk) = some (e', ev)) :
      Step c s .hcall (ev.map (d, ·)) { s with y := { s.y with ex := EspSystem.upd s.y.ex d e' }, call := some d }
  | hacc (d ts e' ev) (hh : inHandler c s) (hc : s.call = some d) (hd : c.sys.tasks d = some ts) (hs : Executor.step (c.sys.exec d ts) (s.y.ex d) (.thr 0) = some (e', ev)) :
      Step c s .hacc (ev.map (d, ·)) { s with y := { s.y with ex := EspSystem.upd s.y.ex d e' }, waits := waitsEx c.own s.waits (ev.map (d, ·)) }
  | hret (d q e) (hh : inHandler c s) (hc : s.call = some d) (hi : (s.y.ex d).pc 0 = .idle) (hq : TimerQueue.step c.tb s.tq .hgo = some (q, e)) : Step c s .hret [] { s with tq := q, y := sync c s.y q, call := none }
  /-- `Delay::poll`, `Delay::drop`, `delay_until`, `timer_queue.rs:191-264`, except `pend_interrupt`; a delay is polled with the waker of its task, in its body -/
  | op (a i q e) (hqu : EspSystem.quiet c.sys s.y) (hc : EspSystem.noCall s.y) (huc : EspSystem.userCode c.sys s.y) (hth : Esp32.top s.y.m.stack ≠ some c.th) (hin : s.inl = false) (hnp : isPend a = false) (hi : opOf a = some i) (hown : isTask c (c.own i) → runsTask c s (c.own i))
      (hwk : ∀ j wk, a = .poll j wk → wk = c.own j) (hst : opStart a = true → noOp c s) (hq : TimerQueue.step c.tb s.tq a = some (q, e)) : Step c s (.op a) [] { s with tq := q, y := sync c s.y q, waits := Delay.waitsTq s.waits a e }
  /-- `riscv::interrupt::disable(); interrupt31()`, `rtic-monotonics/src/esp32c3.rs:130-131`: `disable` is one instruction, so that nothing happens between the two steps of the critical section; `q1` is the timer queue at the call, as if the interrupt had been pended, and the handler starts -/
  | pend (i y1 y2 q1 q e1 e2) (hth : Esp32.top s.y.m.stack ≠ some c.th) (hin : s.inl = false) (hoff : s.y.m.off = false) (hown : isTask c (c.own i) → runsTask c s (c.own i)) (h1 : EspSystem.Step c.sys s.y (.code .userCs) [] y1) (h2 : EspSystem.Step c.sys y1 (.code .raise) [] y2)
      (hq1 : TimerQueue.step c.tb s.tq (.pend i) = some (q1, e1)) (hq2 : TimerQueue.step c.tb q1 .start = some (q, e2)) : Step c s (.pend i) [] { s with tq := q, y := sync c y2 q, inl := true }
  /-- `riscv::interrupt::enable()`, `rtic-monotonics/src/esp32c3.rs:132` -/
  | pendRet (y') (hin : s.inl = true) (hidle : s.tq.h = .idle) (hs : EspSystem.Step c.sys s.y (.code .unlock) [] y') : Step c s .pendRet [] { s with y := y', inl := false }

/-- After `init`: as `EspSystem.Start`; no delay has been polled. -/
structure Start (c : Cfg) (t0 : Nat) (s : St) : Prop where
  m : s.y.m = Esp32.start 0 t0
  calls : ∀ d ts, c.sys.tasks d = some ts → ∃ acts tr, (∀ a ∈ acts, EspSystem.callAct a = true ∧ ∀ t a', a ≠ .callSpawn 0 t a' ∧ a ≠ .callWake 0 t) ∧ Executor.exec (c.sys.exec d ts) Executor.init acts = some (s.y.ex d, tr)
  over : ∀ d i, (s.y.ex d).pc i = .idle
  tq : s.tq = TimerQueue.init c.tb.noop
  line : s.y.pend c.th = false
  call : s.call = none
  inl : s.inl = false
  waits : ∀ i, s.waits i = false

/-- Executions, with the events of the executors. -/
inductive Exec (c : Cfg) : St → List Act → List (Nat × Executor.Ev) → St → Prop
  | nil (s) : Exec c s [] [] s
  | snoc {s s1 s2 as tr a ev} (h : Exec c s as tr s1) (hs : Step c s1 a ev s2) : Exec c s (as ++ [a]) (tr ++ ev) s2

end Verif.EspTimed
