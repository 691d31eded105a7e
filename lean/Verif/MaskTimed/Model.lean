import Verif.MaskSystem.Cases
import Verif.Timed.Props

/-!
# The whole application with a monotonic on targets that mask interrupt sources: `Verif.MaskSystem` and the timer queue

The machine of `Verif.MaskSystem` (handlers, locks, one executor machine per dispatcher) together with the timer queue of `Verif.TimerQueue`: the timer interrupt handler is a handler of the first machine (`th`), it makes its
accesses when it is on top of the stack, and its interrupt is pending when the interrupt line of the timer is high; delays are created, polled and dropped by the running code, access by access, and can be preempted between any two of them
(`rtic-time/src/timer_queue.rs:206-264`); the wakers called by the handler are those of the tasks (`rtic-macros/src/codegen/module.rs:193-201`).

Simplifications: those of the machines. The handler is treated like a hardware task that neither locks nor spawns. No lock masks its interrupt: the masks are computed from the tasks and dispatchers of the application
(`rtic-macros/src/codegen/bindings/cortex.rs:65-164`), so that for locks it is like an exception. It calls wakers as caller number 0 (the others are numbered by their
depth on the stack, which is at least 1). A delay belongs to one task (`own`; what happens to futures that move is C68); the operations on delays of other code (`own` is no software task) are made by any user code.
-/

namespace Verif.MaskTimed

open Verif
open Verif.Timed (opOf opStart waitsEx)

structure Cfg where
  sys : MaskSystem.Cfg
  /-- the timer -/
  tb : TimerQueue.Cfg
  /-- the handler of the timer interrupt -/
  th : Nat
  /-- the task that owns a delay -/
  own : Nat → Nat

/-- The conditions under which the machine models an application: those of `Verif.SourceMask`; the timer interrupt is used by the monotonic only, is in no mask and has a priority (`set_monotonic_prio`, `rtic-monotonics/src/lib.rs:134-156`); a task belongs to one dispatcher. -/
structure WellFormed (c : Cfg) : Prop where
  sm : SourceMask.WellFormed c.sys.sm
  thread : c.sys.sm.prio 0 = 0
  th : c.sys.tasks c.th = none
  unmasked : c.sys.sm.bind c.th = none
  prio1 : 1 ≤ c.sys.sm.prio c.th
  uniq : ∀ d ts d' ts' t, c.sys.tasks d = some ts → c.sys.tasks d' = some ts' → t ∈ ts → t ∈ ts' → d = d'
  width : 0 < c.tb.w

structure St where
  y : MaskSystem.St
  tq : TimerQueue.St
  /-- the timer handler is inside the waker of a task of this dispatcher -/
  call : Option Nat
  /-- bookkeeping for the specification, as in `Verif.Delay`: delay `i` returned `Pending` in the current or latest poll of its task, and has not been dropped -/
  waits : Nat → Bool

/-- the interrupt line of the timer is the pending bit of its handler -/
def sync (c : Cfg) (y : MaskSystem.St) (q : TimerQueue.St) : MaskSystem.St := { y with pend := MaskSystem.upd y.pend c.th q.irq }

/-- the body of task `t` is at the processor -/
def runsTask (c : Cfg) (s : St) (t : Nat) : Prop :=
  ∃ d ts rest, c.sys.tasks d = some ts ∧ t ∈ ts ∧ SourceMask.top s.y.m.stack = some d ∧ (s.y.ex d).d = .body t rest

/-- `t` is a software task -/
def isTask (c : Cfg) (t : Nat) : Prop := ∃ d ts, c.sys.tasks d = some ts ∧ t ∈ ts

/-- the running task is not inside an operation on one of its delays -/
def noOp (c : Cfg) (s : St) : Prop := ∀ i, runsTask c s (c.own i) → s.tq.pc i = .none ∨ s.tq.pc i = .alive

inductive Act where
  /-- one tick of the clock, with the timer hardware raising its events -/
  | clock (m o p : Bool)
  /-- a step of `Verif.MaskSystem` not concerning the timer -/
  | sys (a : MaskSystem.Act)
  /-- the timer interrupt is taken -/
  | enter
  /-- the next step of the timer handler -/
  | hgo
  /-- `set_compare` of the handler; the backend arms the hardware for `x` -/
  | arm (x : Nat)
  /-- the handler calls the waker of a task -/
  | hcall
  /-- the next access of this waker -/
  | hacc
  /-- the waker returns -/
  | hret
  /-- running code makes an access of an operation on a delay -/
  | op (a : TimerQueue.Act)

/-- does the running code make this step -/
def Act.own : Act → Bool
  | .clock _ _ _ | .enter => false
  | .sys a => a.own
  | _ => true

/-- exactly the steps of the clock, the peripherals and the interrupt controller are not made by running code -/
theorem Act.own_iff (a : Act) : a.own = true ↔ ¬ ((∃ m o p, a = .clock m o p) ∨ a = .enter ∨ ∃ h, a = .sys (.hw h) ∨ a = .sys (.unhw h) ∨ a = .sys (.irq h)) := by
  cases a with
  | sys a => cases a <;> simp [Act.own, MaskSystem.Act.own]
  | _ => simp [Act.own]

/-- the handler started by a step -/
def Act.starts (c : Cfg) : Act → Option Nat
  | .enter => some c.th
  | .sys (.irq h) => some h
  | _ => none

/-- a step that the timer handler does not make -/
def userAct : MaskSystem.Act → Bool
  | .spawn _ _ _ | .wake _ _ | .call _ | .code (.lock _) | .code .userCs => true
  | _ => false

/-- the timer handler is at the processor -/
def inHandler (c : Cfg) (s : St) : Prop := MaskSystem.quiet c.sys s.y ∧ ∃ rest, s.y.m.stack = .body c.th :: rest

/-- Steps, with the events of the executors. -/
inductive Step (c : Cfg) (s : St) : Act → List (Nat × Executor.Ev) → St → Prop
  | clock (m o p q e) (hs : TimerQueue.step c.tb s.tq (.tick m o p) = some (q, e)) : Step c s (.clock m o p) [] { s with tq := q, y := sync c s.y q }
  /-- everything of `Verif.MaskSystem`; the running task is not inside an operation on a delay; the timer handler neither locks nor spawns, and returns at its end -/
  | sys (a ev y') (hs : MaskSystem.Step c.sys s.y a ev y') (h1 : a ≠ .hw c.th) (h2 : a ≠ .unhw c.th) (h3 : a ≠ .irq c.th) (hop : a.own = true → noOp c s) (hu : userAct a = true → SourceMask.top s.y.m.stack ≠ some c.th)
      (hf : a = .code .ret → SourceMask.top s.y.m.stack = some c.th → s.tq.h = .idle) : Step c s (.sys a) ev { s with y := y', waits := waitsEx c.own s.waits ev }
  | enter (y' q e) (hs : MaskSystem.Step c.sys s.y (.irq c.th) [] y') (hq : TimerQueue.step c.tb s.tq .start = some (q, e)) : Step c s .enter [] { s with tq := q, y := sync c y' q }
  /-- `on_monotonic_interrupt`, `timer_queue.rs:100-138`, except for wakers of tasks -/
  | hgo (q e) (hh : inHandler c s) (hc : s.call = none) (hw : ∀ wk, s.tq.h = .h2 wk → ¬ isTask c wk) (hq : TimerQueue.step c.tb s.tq .hgo = some (q, e)) : Step c s .hgo [] { s with tq := q, y := sync c s.y q }
  | arm (x q e) (hh : inHandler c s) (hq : TimerQueue.step c.tb s.tq (.arm x) = some (q, e)) : Step c s (.arm x) [] { s with tq := q, y := sync c s.y q }
  /-- `link.waker.wake()`, `timer_queue.rs:117` -/
  | hcall (d ts wk e' ev) (hh : inHandler c s) (hc : s.call = none) (hw : s.tq.h = .h2 wk) (hd : c.sys.tasks d = some ts) (hwk : wk ∈ ts) (hs : Executor.step (c.sys.exec d ts) (s.y.ex d) (.callWake 0 wk) = some (e', ev)) :
      Step c s .hcall (ev.map (d, ·)) { s with y := { s.y with ex := MaskSystem.upd s.y.ex d e' }, call := some d }
  | hacc (d ts e' ev) (hh : inHandler c s) (hc : s.call = some d) (hd : c.sys.tasks d = some ts) (hs : Executor.step (c.sys.exec d ts) (s.y.ex d) (.thr 0) = some (e', ev)) :
      Step c s .hacc (ev.map (d, ·)) { s with y := { s.y with ex := MaskSystem.upd s.y.ex d e' }, waits := waitsEx c.own s.waits (ev.map (d, ·)) }
  | hret (d q e) (hh : inHandler c s) (hc : s.call = some d) (hi : (s.y.ex d).pc 0 = .idle) (hq : TimerQueue.step c.tb s.tq .hgo = some (q, e)) : Step c s .hret [] { s with tq := q, y := sync c s.y q, call := none }
  /-- `Delay::poll`, `Delay::drop`, `delay_until`, `timer_queue.rs:191-264`; a delay is polled with the waker of its task, in its body -/
  | op (a i q e) (hqu : MaskSystem.quiet c.sys s.y) (hc : MaskSystem.noCall s.y) (huc : MaskSystem.userCode c.sys s.y) (hth : SourceMask.top s.y.m.stack ≠ some c.th) (hi : opOf a = some i) (hown : isTask c (c.own i) → runsTask c s (c.own i)) (hwk : ∀ j wk, a = .poll j wk → wk = c.own j)
      (hst : opStart a = true → noOp c s) (hq : TimerQueue.step c.tb s.tq a = some (q, e)) : Step c s (.op a) [] { s with tq := q, y := sync c s.y q, waits := Delay.waitsTq s.waits a e }

/-- After `init`: as `MaskSystem.Start`; no delay has been polled. -/
structure Start (c : Cfg) (e0 : SourceMask.Regs) (s : St) : Prop where
  m : s.y.m = SourceMask.start 0 e0
  calls : ∀ d ts, c.sys.tasks d = some ts → ∃ acts tr, (∀ a ∈ acts, MaskSystem.callAct a = true ∧ ∀ t a', a ≠ .callSpawn 0 t a' ∧ a ≠ .callWake 0 t) ∧ Executor.exec (c.sys.exec d ts) Executor.init acts = some (s.y.ex d, tr)
  over : ∀ d i, (s.y.ex d).pc i = .idle
  tq : s.tq = TimerQueue.init c.tb.noop
  line : s.y.pend c.th = false
  call : s.call = none
  waits : ∀ i, s.waits i = false

/-- Executions, with the events of the executors. -/
inductive Exec (c : Cfg) : St → List Act → List (Nat × Executor.Ev) → St → Prop
  | nil (s) : Exec c s [] [] s
  | snoc {s s1 s2 as tr a ev} (h : Exec c s as tr s1) (hs : Step c s1 a ev s2) : Exec c s (as ++ [a]) (tr ++ ev) s2

end Verif.MaskTimed
