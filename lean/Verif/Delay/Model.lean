import Verif.TimerQueue.Props
import Verif.Executor.Props

/-!
# A task that awaits a delay: timer queue and executor together

The machines `Verif.TimerQueue` (delays, timer interrupt handler, timer hardware, clock) and `Verif.Executor` (spawns, wakers, dispatcher) run side by side. They meet in two places:

* a `Delay` is polled in the body of the task that owns it, with the waker of this task (`rtic/src/export/executor.rs:281-284`, `rtic-time/src/timer_queue.rs:208-247`);
* the timer interrupt handler, having taken an expired entry out of the list, calls its waker (`rtic-time/src/timer_queue.rs:117`), which is the generated waker of a task
  (`rtic-macros/src/codegen/module.rs:193-201`, `async_dispatchers.rs:46-52`): it sets the flag of the task and pends the dispatcher.

All interleavings are allowed: of the clock, the hardware, the handler, every poll and drop of a delay, every spawn and wake by other threads, and the dispatcher.

Simplifications: one dispatcher (tasks of other priorities may have delays in the same queue; for them only the timer side is modelled); a delay is polled by one task only (`own`): what happens to futures that move to
another task is C68.
-/

namespace Verif.Delay

structure Cfg where
  /-- the timer -/
  tb : TimerQueue.Cfg
  /-- the dispatcher and its tasks -/
  xc : Executor.Cfg
  /-- the task that owns a delay -/
  own : Nat → Nat
  /-- the timer interrupt handler, as a caller of wakers -/
  hid : Nat

structure St where
  tq : TimerQueue.St
  ex : Executor.St
  /-- the handler is inside `wake`, `timer_queue.rs:117` -/
  inCall : Bool
  /-- bookkeeping for the specification: delay `i` returned `Pending` in the current or latest poll of its task, and has not been dropped -/
  waits : Nat → Bool

inductive Ev where
  | tq (e : TimerQueue.Ev)
  | ex (e : Executor.Ev)
deriving DecidableEq, Repr

inductive Act where
  /-- clock, hardware, delays, and the handler except for `wake` -/
  | tq (a : TimerQueue.Act)
  /-- spawns and wakes by others, dispatcher; the accesses inside the `wake` of the handler -/
  | ex (a : Executor.Act)
  /-- the handler calls `wake`, `timer_queue.rs:117` -/
  | hcall
  /-- this call returns -/
  | hret
deriving DecidableEq, Repr

/-- The handler is about to wake a task of this dispatcher, or doing so. -/
def St.wakes (c : Cfg) (s : St) : Bool :=
  match s.tq.h with
  | .h2 wk => decide (wk ∈ c.xc.ts)
  | _ => false

/-- What is possible: `wake` of a task of this dispatcher is done by `hcall`/`hret`; a delay is polled with the waker of the task that owns it, and in the body of this task. -/
def tqOk (c : Cfg) (s : St) : TimerQueue.Act → Bool
  | .hgo => !s.wakes c
  | .poll i wk => decide (wk = c.own i) && (s.ex.d.isBody wk || decide (wk ∉ c.xc.ts))
  | _ => true

/-- Others do not act as the timer interrupt handler. -/
def exOk (c : Cfg) : Executor.Act → Bool
  | .callSpawn j _ _ | .callWake j _ => decide (j ≠ c.hid)
  | _ => true

/-- Bookkeeping: does delay `i` wait, after action `a` with events `e` -/
def waitsTq (w : Nat → Bool) (a : TimerQueue.Act) (e : List TimerQueue.Ev) : Nat → Bool :=
  match a with
  | .poll i _ => fun j => if j = i then decide (.ready i ∉ e) else w j
  | .create i _ | .drop i => fun j => if j = i then false else w j
  | _ => w

/-- Bookkeeping: a new poll of the task begins, or the task ends -/
def waitsEx (own : Nat → Nat) (w : Nat → Bool) (e : List Executor.Ev) : Nat → Bool :=
  fun i => w i && decide (.polled (own i) ∉ e ∧ .completed (own i) ∉ e)

def step (c : Cfg) (s : St) : Act → Option (St × List Ev)
  | .tq a =>
    if tqOk c s a then
      match TimerQueue.step c.tb s.tq a with
      | some (q, e) => some ({ s with tq := q, waits := waitsTq s.waits a e }, e.map .tq)
      | none => none
    else none
  | .ex a =>
    if exOk c a then
      match Executor.step c.xc s.ex a with
      | some (x, e) => some ({ s with ex := x, waits := waitsEx c.own s.waits e }, e.map .ex)
      | none => none
    else none
  | .hcall =>
    match s.tq.h with
    | .h2 wk =>
      if s.inCall then none
      else
        match Executor.step c.xc s.ex (.callWake c.hid wk) with
        | some (x, e) => some ({ s with ex := x, inCall := true }, e.map .ex)
        | none => none
    | _ => none
  | .hret =>
    if s.inCall = true ∧ s.ex.pc c.hid = .idle then
      match TimerQueue.step c.tb s.tq .hgo with
      | some (q, e) => some ({ s with tq := q, inCall := false }, e.map .tq)
      | none => none
    else none

def init (c : Cfg) : St := { tq := TimerQueue.init c.tb.noop, ex := Executor.init, inCall := false, waits := fun _ => false }

def exec (c : Cfg) (s : St) : List Act → Option (St × List Ev)
  | [] => some (s, [])
  | a :: as =>
    match step c s a with
    | none => none
    | some (s1, e) =>
      match exec c s1 as with
      | none => none
      | some (s2, es) => some (s2, e ++ es)

/-- accesses of the dispatcher in a schedule -/
def dispCount : List Act → Nat
  | [] => 0
  | .ex (.disp _) :: as => dispCount as + 1
  | _ :: as => dispCount as

end Verif.Delay
