import Verif.SourceMask.Model
import Verif.Executor.Model

/-!
# The whole application on targets that mask interrupt sources (Cortex-M0, M0+, M23)

The counterpart of `Verif.System` for targets without BASEPRI: the machine of `Verif.SourceMask` (handlers on one stack, locks that disable interrupts in the NVIC, register access by register access) together with one machine of `Verif.Executor` for every dispatcher. A dispatcher is a handler of the first machine, and
its accesses are made when it runs; a call of `spawn` or of a waker is made by the handler that runs at the moment, may be preempted between any two of its accesses, and ends by pending the interrupt of the dispatcher.

Handler 0 is the thread (idle, or the loop over the tasks of priority 0, `rtic-macros/src/codegen/main.rs:17-25`, `async_dispatchers.rs:82-91`).

The interrupt controller (ARMv6-M, ARMv8-M Baseline): an interrupt that is pending, enabled and admitted is taken before the running code makes another step, the most urgent one first; taking it clears its pending bit. A disabled interrupt stays pending.

Simplifications: those of the two machines and of `Verif.System`; tasks do not call `NVIC::mask` (C60 shows what happens otherwise).
-/

namespace Verif.MaskSystem

open Verif

structure Cfg where
  sm : SourceMask.Cfg
  /-- the software tasks polled by a handler, in polling order; `none`: the handler is not a dispatcher -/
  tasks : Nat → Option (List Nat)

/-- configuration of the executors of dispatcher `h`, which polls `ts` -/
def Cfg.exec (c : Cfg) (h : Nat) (ts : List Nat) : Executor.Cfg := { ts := ts, zero := decide (c.sm.prio h = 0) }

structure St where
  /-- stack, interrupt enable registers, PRIMASK -/
  m : SourceMask.St
  /-- pending bits of the interrupts of hardware tasks -/
  pend : Nat → Bool
  /-- executors of each dispatcher, with the pending bit of its interrupt -/
  ex : Nat → Executor.St

/-- An access of a caller, as opposed to one of the dispatcher. -/
def callAct : Executor.Act → Bool
  | .disp _ => false
  | _ => true

/-- After `init`, when interrupts have been enabled: the thread runs; interrupts of hardware tasks may be pending; `init` may have spawned tasks and called wakers (with interrupts disabled, so no dispatcher has run), and all these calls are over. `e0`: the interrupts enabled at startup. -/
structure Start (c : Cfg) (e0 : SourceMask.Regs) (s : St) : Prop where
  m : s.m = SourceMask.start 0 e0
  calls : ∀ d ts, c.tasks d = some ts → ∃ acts tr, (∀ a ∈ acts, callAct a = true) ∧ Executor.exec (c.exec d ts) Executor.init acts = some (s.ex d, tr)
  over : ∀ d i, (s.ex d).pc i = .idle

/-- the interrupt of handler `h` is pending -/
def pended (c : Cfg) (s : St) (h : Nat) : Bool :=
  match c.tasks h with
  | some _ => (s.ex h).irq
  | none => s.pend h

/-- the interrupt of handler `h` is pending, and the hardware admits it now -/
def takeable (c : Cfg) (s : St) (h : Nat) : Prop :=
  1 ≤ c.sm.prio h ∧ pended c s h = true ∧ ∃ cur, SourceMask.top s.m.stack = some cur ∧ SourceMask.admits c.sm s.m cur h

/-- no interrupt has to be taken: the running code makes a step -/
def quiet (c : Cfg) (s : St) : Prop := ∀ h, ¬ takeable c s h

/-- number of handlers on the stack; it identifies the topmost one among those on the stack -/
def depth : List SourceMask.Rec → Nat
  | [] => 0
  | .body _ :: rest => depth rest + 1
  | _ :: rest => depth rest

/-- the running handler is not inside a call of `spawn` or of a waker -/
def noCall (s : St) : Prop := ∀ d, (s.ex d).pc (depth s.m.stack) = .idle

/-- user code runs: the handler on top is a hardware task or idle, or a dispatcher polling a task -/
def userCode (c : Cfg) (s : St) : Prop :=
  SourceMask.inCode s.m.stack = true ∧ ∀ h ts, SourceMask.top s.m.stack = some h → c.tasks h = some ts → ∃ t rest, (s.ex h).d = .body t rest

inductive Act where
  /-- a peripheral pends the interrupt of a hardware task -/
  | hw (h : Nat)
  /-- this request is withdrawn (the peripheral's event is cleared or disabled) -/
  | unhw (h : Nat)
  /-- the processor takes an interrupt -/
  | irq (h : Nat)
  /-- step of `lock` or `critical_section::with` of the running handler, or its return -/
  | code (a : SourceMask.Act)
  /-- the running handler calls `spawn` of task `u` of dispatcher `d` with arguments `a` -/
  | spawn (d u a : Nat)
  /-- the running handler calls the waker of task `u` of dispatcher `d` -/
  | wake (d u : Nat)
  /-- next access of that call -/
  | call (d : Nat)
  /-- next access of the running dispatcher `h`; `ready`: what the polled future returns, if it is at its end -/
  | disp (h : Nat) (ready : Bool)

/-- does the running code make this step (as opposed to a peripheral or the interrupt controller)? -/
def Act.own : Act → Bool
  | .hw _ | .unhw _ | .irq _ => false
  | _ => true

/-- exactly the steps of the peripherals and of the interrupt controller are not made by running code -/
theorem Act.own_iff (a : Act) : a.own = true ↔ ¬ ∃ h, a = .hw h ∨ a = .unhw h ∨ a = .irq h := by cases a <;> simp [Act.own]

def upd {α} (f : Nat → α) (i : Nat) (a : α) : Nat → α := fun j => if j = i then a else f j

/-- Steps, with the events of the executors (dispatcher, event). -/
inductive Step (c : Cfg) (s : St) : Act → List (Nat × Executor.Ev) → St → Prop
  | hw (h) (ht : c.tasks h = none) : Step c s (.hw h) [] { s with pend := upd s.pend h true }
  | unhw (h) (ht : c.tasks h = none) : Step c s (.unhw h) [] { s with pend := upd s.pend h false }
  /-- the handler of a hardware task is entered -/
  | irqHw (h m') (ht : c.tasks h = none) (hp : takeable c s h) (hbest : ∀ h', takeable c s h' → c.sm.prio h' ≤ c.sm.prio h) (hm : SourceMask.Step c.sm s.m (.irq h) m') :
      Step c s (.irq h) [] { s with m := m', pend := upd s.pend h false }
  /-- a dispatcher is entered: it is going to look at all its tasks, `async_dispatchers.rs:41-80` -/
  | irqDisp (h ts m') (ht : c.tasks h = some ts) (hp : takeable c s h) (hbest : ∀ h', takeable c s h' → c.sm.prio h' ≤ c.sm.prio h) (hm : SourceMask.Step c.sm s.m (.irq h) m') :
      Step c s (.irq h) [] { s with m := m', ex := upd s.ex h { s.ex h with irq := false, d := .run ts } }
  /-- a handler locks or enters a critical section in user code only; a dispatcher returns when it has looked at all its tasks -/
  | code (a m') (hq : quiet c s) (hc : noCall s) (hm : SourceMask.Step c.sm s.m a m') (hi : ∀ t, a ≠ .irq t) (hn : ∀ n, a ≠ .nvicMask n) (hu : (∃ r, a = .lock r) ∨ a = .userCs → userCode c s)
      (hf : a = .ret → ∀ h ts, SourceMask.top s.m.stack = some h → c.tasks h = some ts → (s.ex h).d = .idle) : Step c s (.code a) [] { s with m := m' }
  | spawn (d ts u a e' ev) (hq : quiet c s) (hc : noCall s) (hu : userCode c s) (hd : c.tasks d = some ts) (hs : Executor.step (c.exec d ts) (s.ex d) (.callSpawn (depth s.m.stack) u a) = some (e', ev)) :
      Step c s (.spawn d u a) (ev.map (d, ·)) { s with ex := upd s.ex d e' }
  | wake (d ts u e' ev) (hq : quiet c s) (hc : noCall s) (hu : userCode c s) (hd : c.tasks d = some ts) (hs : Executor.step (c.exec d ts) (s.ex d) (.callWake (depth s.m.stack) u) = some (e', ev)) :
      Step c s (.wake d u) (ev.map (d, ·)) { s with ex := upd s.ex d e' }
  | call (d ts e' ev) (hq : quiet c s) (hu : userCode c s) (hd : c.tasks d = some ts) (hs : Executor.step (c.exec d ts) (s.ex d) (.thr (depth s.m.stack)) = some (e', ev)) :
      Step c s (.call d) (ev.map (d, ·)) { s with ex := upd s.ex d e' }
  /-- `async_dispatchers.rs:41-91`: outside the bodies of the tasks the dispatcher holds no lock; a future returns to the dispatcher holding none. The loop of priority 0 starts over again and again -/
  | disp (h rest ts r e' ev) (hq : quiet c s) (hc : noCall s) (hst : s.m.stack = .body h :: rest) (hd : c.tasks h = some ts) (hr : (s.ex h).d ≠ .idle ∨ c.sm.prio h = 0)
      (hs : Executor.step (c.exec h ts) (s.ex h) (.disp r) = some (e', ev)) : Step c s (.disp h r) (ev.map (h, ·)) { s with ex := upd s.ex h e' }

/-- Executions, with the events. -/
inductive Exec (c : Cfg) : St → List Act → List (Nat × Executor.Ev) → St → Prop
  | nil (s) : Exec c s [] [] s
  | snoc {s s1 s2 as tr a ev} (h : Exec c s as tr s1) (hs : Step c s1 a ev s2) : Exec c s (as ++ [a]) (tr ++ ev) s2

end Verif.MaskSystem
