import Verif.System.Props
import Verif.Await.Generic

/-!
# The whole application with a synchronisation primitive (BASEPRI targets)

The machine of `Verif.System` (interrupt controller, locks, all dispatchers with their executors) together with the machine of a primitive (`Verif.Channel`, `Verif.Arbiter`, `Verif.Signal`, `Verif.Watch`). The running code of any handler performs the
next action of an operation of the primitive whenever it is in user code; it may be preempted between any two actions, and code of other handlers may perform actions of other operations meanwhile. An action that calls the waker of a task
(`rtic-common/src/waker_registration.rs:56-64`, `rtic-common/src/wait_queue.rs`: `pop` and `wake`; the waker is the generated one, `rtic-macros/src/codegen/module.rs:193-201`, `async_dispatchers.rs:46-52`) begins a call of that waker by the running code: this is a step of
`Verif.System`.

Other primitives of the same application, timers and so on are present too, in this way: running code may call the waker of any task at any time (`System.Step.wake`).

Simplifications: those of the two machines; which code performs which action of the primitive is not restricted (a poll of a future may be made by any code, not only by the task that owns it), so there are more executions than of a program.
-/

namespace Verif.Sync

open Verif

structure Cfg (S A E : Type) where
  sys : System.Cfg
  /-- the primitive -/
  m : S → A → Option (S × List E)
  m0 : S
  /-- the event is the call of this waker -/
  woke : E → Option Nat

structure St (S : Type) where
  y : System.St
  m : S

variable {S A E : Type}

inductive Act (A : Type) where
  /-- a step that does not concern the primitive -/
  | sys (a : System.Act)
  /-- the running code performs an action of the primitive -/
  | op (a : A)

/-- does the running code make this step (as opposed to a peripheral or the interrupt controller)? -/
def Act.own : Act A → Bool
  | .sys a => a.own
  | .op _ => true

/-- exactly the steps of the peripherals and of the interrupt controller are not made by running code -/
theorem Act.own_iff (a : Act A) : a.own = true ↔ ¬ ∃ h, a = .sys (.hw h) ∨ a = .sys (.unhw h) ∨ a = .sys (.irq h) := by
  cases a with
  | sys a => cases a <;> simp [Act.own, System.Act.own]
  | op a => simp [Act.own]

inductive Ev (A E : Type) where
  /-- an action of the primitive is performed -/
  | act (a : A)
  /-- its events -/
  | m (e : E)
  /-- event of the executors of dispatcher `d` -/
  | ex (d : Nat) (e : Executor.Ev)
deriving DecidableEq, Repr

/-- the wakers called by an action -/
def called (c : Cfg S A E) (e : List E) : List Nat := e.filterMap c.woke

/-- Steps, with their events. (No action of a primitive calls more than one waker: the lemmas `signal_one_wake` etc. of `Verif.Await`.) -/
inductive Step (c : Cfg S A E) (s : St S) : Act A → List (Ev A E) → St S → Prop
  | sys (a ev y') (h : System.Step c.sys s.y a ev y') : Step c s (.sys a) (ev.map fun x => .ex x.1 x.2) { s with y := y' }
  /-- an action that calls no waker of a task -/
  | op (a m' e) (hq : System.quiet c.sys s.y) (hc : System.noCall s.y) (hu : System.userCode c.sys s.y) (hm : c.m s.m a = some (m', e)) (hw : ∀ t ∈ called c e, ∀ d ts, c.sys.tasks d = some ts → t ∉ ts) :
      Step c s (.op a) (.act a :: e.map .m) { s with m := m' }
  /-- an action that calls the waker of task `t` of dispatcher `d` -/
  | wake (a m' e d ts t ev y') (hm : c.m s.m a = some (m', e)) (hw : called c e = [t]) (hd : c.sys.tasks d = some ts) (ht : t ∈ ts) (hy : System.Step c.sys s.y (.wake d t) ev y') :
      Step c s (.op a) (.act a :: e.map .m) { y := y', m := m' }

inductive Exec (c : Cfg S A E) : St S → List (Act A) → List (Ev A E) → St S → Prop
  | nil (s) : Exec c s [] [] s
  | snoc {s s1 s2 as tr a ev} (h : Exec c s as tr s1) (hs : Step c s1 a ev s2) : Exec c s (as ++ [a]) (tr ++ ev) s2

/-- the composition of the primitive with the executors of dispatcher `d` alone -/
def Cfg.await (c : Cfg S A E) (d : Nat) (ts : List Nat) : Await.Cfg S A E := { m := c.m, m0 := c.m0, woke := c.woke, xc := c.sys.exec d ts }

/-- the events of the primitive and of dispatcher `d` -/
def evP (d : Nat) : List (Ev A E) → List (Await.Ev A E)
  | [] => []
  | .act a :: tr => .act a :: evP d tr
  | .m e :: tr => .m e :: evP d tr
  | .ex d' e :: tr => if d' = d then .ex e :: evP d tr else evP d tr

/-- accesses of a caller, or actions of the primitive -/
def initAct : Await.Act A → Bool
  | .ex a => System.callAct a
  | .m _ _ => true

/-- `init` does everything but poll -/
theorem initAct_iff (a : Await.Act A) : initAct a = true ↔ ¬ ∃ r, a = .ex (.disp r) := by
  cases a with
  | ex a => cases a <;> simp [initAct, System.callAct]
  | m j a => simp [initAct]

/-- After `init`, when interrupts have been enabled: `init` may have spawned tasks, called wakers and used the primitive (with history `tr0`), all with interrupts disabled; its calls are over. -/
structure Start (c : Cfg S A E) (s : St S) (tr0 : List (Ev A E)) : Prop where
  y : System.Start c.sys s.y
  hist : ∀ d ts, c.sys.tasks d = some ts → ∃ acts, (∀ a ∈ acts, initAct a = true) ∧ Await.exec (c.await d ts) (Await.init (c.await d ts)) acts = some (⟨s.m, s.y.ex d⟩, evP d tr0)

/-- A task belongs to one dispatcher. -/
structure WellFormed (c : Cfg S A E) : Prop where
  srp : Srp.WellFormed c.sys.srp
  thread : c.sys.srp.prio 0 = 0
  one : ∀ d d' ts ts' t, c.sys.tasks d = some ts → c.sys.tasks d' = some ts' → t ∈ ts → t ∈ ts' → d = d'

end Verif.Sync
