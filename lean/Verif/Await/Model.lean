import Verif.Executor.Props

/-!
# Awaiting: a synchronisation primitive and the executor together

The machine `Verif.Executor` (spawns, wakers, dispatcher) runs side by side with the machine of a primitive: `Verif.Channel`, `Verif.Arbiter`, `Verif.Signal`, `Verif.Watch`. They meet where the primitive calls a waker
(`rtic-common/src/waker_registration.rs:56-64`, `rtic-common/src/wait_queue.rs`: `pop` and `wake`): the waker a task polls its futures with is the generated waker of the task
(`rtic/src/export/executor.rs:281-284`, `rtic-macros/src/codegen/module.rs:193-201`, `async_dispatchers.rs:46-52`), which sets the flag of the task and pends the dispatcher. So a step of the primitive that wakes waker `t` begins a call of
the waker of task `t` by the same thread of control, which proceeds with the primitive only when this call has returned.

All interleavings of all operations of the primitive, of spawns, of other wakers and of the dispatcher are allowed. This is more than a program can do: any thread may perform any action, and polls of
futures are not confined to the bodies of their tasks.

Simplifications: one dispatcher; a waker with a number that is no task of this dispatcher (a task of another priority, or a user's own waker) has no effect in the model.
-/

namespace Verif.Await

/-- A primitive with states `S`, actions `A` and events `E`. -/
structure Cfg (S A E : Type) where
  m : S → A → Option (S × List E)
  m0 : S
  /-- the event is the call of this waker -/
  woke : E → Option Nat
  /-- the dispatcher and its tasks -/
  xc : Executor.Cfg

structure St (S : Type) where
  m : S
  ex : Executor.St

inductive Ev (A E : Type) where
  /-- an action of the primitive is performed -/
  | act (a : A)
  /-- its events -/
  | m (e : E)
  /-- events of the executor -/
  | ex (e : Executor.Ev)
deriving DecidableEq, Repr

inductive Act (A : Type) where
  /-- thread of control `j` performs an action of the primitive -/
  | m (j : Nat) (a : A)
  | ex (a : Executor.Act)

variable {S A E : Type}

/-- The tasks woken by a step of the primitive. -/
def wakes (c : Cfg S A E) (e : List E) : List Nat := (e.filterMap c.woke).filter (· ∈ c.xc.ts)

/-- One step. (No step of a primitive wakes more than one waker: `one_wake` lemmas in `Props`; the last case of the match is there to make the function total.) -/
def step (c : Cfg S A E) (s : St S) : Act A → Option (St S × List (Ev A E))
  | .m j a =>
    if s.ex.pc j = .idle then
      match c.m s.m a with
      | none => none
      | some (m, e) =>
        match wakes c e with
        | [] => some ({ s with m := m }, .act a :: e.map .m)
        | [t] =>
          match Executor.step c.xc s.ex (.callWake j t) with
          | some (x, _) => some ({ m := m, ex := x }, .act a :: e.map .m)
          | none => none
        | _ => none
    else none
  | .ex a =>
    match Executor.step c.xc s.ex a with
    | some (x, e) => some ({ s with ex := x }, e.map .ex)
    | none => none

def init (c : Cfg S A E) : St S := { m := c.m0, ex := Executor.init }

def exec (c : Cfg S A E) (s : St S) : List (Act A) → Option (St S × List (Ev A E))
  | [] => some (s, [])
  | a :: as =>
    match step c s a with
    | none => none
    | some (s1, e) =>
      match exec c s1 as with
      | none => none
      | some (s2, es) => some (s2, e ++ es)

/-- `s` is reached from the start with history `tr`. -/
def Reach (c : Cfg S A E) (s : St S) (tr : List (Ev A E)) : Prop := ∃ as, exec c (init c) as = some (s, tr)

/-- accesses of the dispatcher in a schedule -/
def dispCount : List (Act A) → Nat
  | [] => 0
  | .ex (.disp _) :: as => dispCount as + 1
  | _ :: as => dispCount as

/-- No call of `spawn` or of a waker of `t` is under way. -/
def NoCall (t : Nat) (x : Executor.St) : Prop := ∀ j, x.pc j ≠ .w1 t ∧ x.pc j ≠ .p t ∧ x.pc j ≠ .s3 t ∧ ∀ a, x.pc j ≠ .s2 t a

end Verif.Await
