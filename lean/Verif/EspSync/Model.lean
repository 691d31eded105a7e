import Verif.EspSystem.Props
import Verif.Sync.Props

/-!
# The whole application with a synchronisation primitive (ESP32-C3, C6)

As `Verif.Sync`, with the machine of `Verif.EspSystem` in place of that of `Verif.System`. Events and histories are those of `Verif.Sync`.
-/

namespace Verif.EspSync

open Verif
open Verif.Sync (Ev evP initAct SinceLastPoll sysEvs)

structure Cfg (S A E : Type) where
  sys : EspSystem.Cfg
  /-- the primitive -/
  m : S → A → Option (S × List E)
  m0 : S
  /-- the event is the call of this waker -/
  woke : E → Option Nat

structure St (S : Type) where
  y : EspSystem.St
  m : S

variable {S A E : Type}

inductive Act (A : Type) where
  /-- a step that does not concern the primitive -/
  | sys (a : EspSystem.Act)
  /-- the running code performs an action of the primitive -/
  | op (a : A)

/-- does the running code make this step (as opposed to a peripheral or the interrupt controller)? -/
def Act.own : Act A → Bool
  | .sys a => a.own
  | .op _ => true

/-- exactly the steps of the peripherals and of the interrupt controller are not made by running code -/
theorem Act.own_iff (a : Act A) : a.own = true ↔ ¬ ∃ h, a = .sys (.hw h) ∨ a = .sys (.unhw h) ∨ a = .sys (.irq h) := by
  cases a with
  | sys a => cases a <;> simp [Act.own, EspSystem.Act.own]
  | op a => simp [Act.own]

/-- the wakers called by an action -/
def called (c : Cfg S A E) (e : List E) : List Nat := e.filterMap c.woke

/-- Steps, with their events. (No action of a primitive calls more than one waker: the lemmas `signal_one_wake` etc. of `Verif.Await`.) -/
inductive Step (c : Cfg S A E) (s : St S) : Act A → List (Ev A E) → St S → Prop
  | sys (a ev y') (h : EspSystem.Step c.sys s.y a ev y') : Step c s (.sys a) (ev.map fun x => .ex x.1 x.2) { s with y := y' }
  /-- an action that calls no waker of a task -/
  | op (a m' e) (hq : EspSystem.quiet c.sys s.y) (hc : EspSystem.noCall s.y) (hu : EspSystem.userCode c.sys s.y) (hm : c.m s.m a = some (m', e)) (hw : ∀ t ∈ called c e, ∀ d ts, c.sys.tasks d = some ts → t ∉ ts) :
      Step c s (.op a) (.act a :: e.map .m) { s with m := m' }
  /-- an action that calls the waker of task `t` of dispatcher `d` -/
  | wake (a m' e d ts t ev y') (hm : c.m s.m a = some (m', e)) (hw : called c e = [t]) (hd : c.sys.tasks d = some ts) (ht : t ∈ ts) (hy : EspSystem.Step c.sys s.y (.wake d t) ev y') :
      Step c s (.op a) (.act a :: e.map .m) { y := y', m := m' }

inductive Exec (c : Cfg S A E) : St S → List (Act A) → List (Ev A E) → St S → Prop
  | nil (s) : Exec c s [] [] s
  | snoc {s s1 s2 as tr a ev} (h : Exec c s as tr s1) (hs : Step c s1 a ev s2) : Exec c s (as ++ [a]) (tr ++ ev) s2

/-- the composition of the primitive with the executors of dispatcher `d` alone -/
def Cfg.await (c : Cfg S A E) (d : Nat) (ts : List Nat) : Await.Cfg S A E := { m := c.m, m0 := c.m0, woke := c.woke, xc := c.sys.exec d ts }

/-- After `init`, when interrupts have been enabled: `init` may have spawned tasks, called wakers and used the primitive (with history `tr0`), all with interrupts disabled; its calls are over. `t0`: the threshold at startup. -/
structure Start (c : Cfg S A E) (t0 : Nat) (s : St S) (tr0 : List (Ev A E)) : Prop where
  y : EspSystem.Start c.sys t0 s.y
  hist : ∀ d ts, c.sys.tasks d = some ts → ∃ acts, (∀ a ∈ acts, initAct a = true) ∧ Await.exec (c.await d ts) (Await.init (c.await d ts)) acts = some (⟨s.m, s.y.ex d⟩, evP d tr0)

/-- The threshold at startup is at most 1, and a task belongs to one dispatcher. -/
structure WellFormed (c : Cfg S A E) (t0 : Nat) : Prop where
  hw : Esp32.WellFormed c.sys.hw
  low : t0 ≤ 1
  thread : c.sys.hw.prio 0 = 0
  one : ∀ d d' ts ts' t, c.sys.tasks d = some ts → c.sys.tasks d' = some ts' → t ∈ ts → t ∈ ts' → d = d'

end Verif.EspSync
