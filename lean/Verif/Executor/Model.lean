/-!
# The async executor: spawn, wake, dispatcher

Model of `rtic/src/export/executor.rs` and of the generated `spawn`, waker and dispatcher functions
(`rtic-macros/src/codegen/module.rs:165-203`, `rtic-macros/src/codegen/async_dispatchers.rs`).

One dispatcher (one priority level) with its list of tasks, and any number of threads of control that spawn and wake these tasks: other tasks, interrupt handlers, other dispatchers,
and the bodies of the tasks themselves. One action is one access to shared memory; all interleavings are allowed.

Simplifications: the arguments of a task are one `Nat`; the future of an `async fn` is represented by the arguments it was built from and by whether it has been polled
and has completed; what a body does between its accesses to executors is not modelled (it decides freely when to return `Ready`). Polling memory that
holds no live future is undefined behaviour: the model records `badPoll` and stops.
-/

namespace Verif.Executor

/-- Content of `AsyncTaskExecutor::task`, `executor.rs:207`. -/
inductive Slot where
  /-- never written -/
  | empty
  /-- future built from the arguments, not polled yet -/
  | fresh (a : Nat)
  /-- future that has been polled and has not completed -/
  | begun (a : Nat)
  /-- future that returned `Ready` -/
  | done
deriving DecidableEq, Repr

/-- Program counter of a thread that calls the generated `spawn` or a waker. -/
inductive Tpc where
  | idle
  /-- before `try_allocate`, `module.rs:176` -/
  | s1 (t a : Nat)
  /-- allocated; before the future is written, `executor.rs:266` -/
  | s2 (t a : Nat)
  /-- before `set_pending`, `executor.rs:268` -/
  | s3 (t : Nat)
  /-- waker called; before `set_pending`, `async_dispatchers.rs:49`, `module.rs:198` -/
  | w1 (t : Nat)
  /-- before `pend(dispatcher)`, `module.rs:178,199`, `async_dispatchers.rs:50` -/
  | p (t : Nat)
deriving DecidableEq, Repr

/-- Program counter of the dispatcher. `rest` are the tasks still to be looked at. -/
inductive Dpc where
  | idle
  /-- before `is_running()` of the first of `rest`, `executor.rs:279` -/
  | run (rest : List Nat)
  /-- before `check_and_clear_pending()` of `t`, `executor.rs:279` -/
  | pend (t : Nat) (rest : List Nat)
  /-- before `future.poll`, `executor.rs:284` -/
  | poll (t : Nat) (rest : List Nat)
  /-- inside the body -/
  | body (t : Nat) (rest : List Nat)
  /-- `Ready`; before `running.store(false)`, `executor.rs:286` -/
  | rel (t : Nat) (rest : List Nat)
deriving DecidableEq, Repr

structure St where
  running : Nat → Bool
  pending : Nat → Bool
  slot : Nat → Slot
  /-- dispatcher interrupt pended in the interrupt controller -/
  irq : Bool
  pc : Nat → Tpc
  d : Dpc
  /-- undefined behaviour has happened -/
  ub : Bool

inductive Ev where
  /-- `spawn` on `t` with arguments `a` returns `Ok` (decided by the compare-exchange) -/
  | ok (t a : Nat)
  /-- `spawn` on `t` returns `Err(a)` -/
  | err (t a : Nat)
  /-- first poll of a future of `t`: the body starts with these arguments -/
  | started (t a : Nat)
  /-- a live future of `t` is polled (also the first time) -/
  | polled (t : Nat)
  /-- the future of `t` completed and its storage was released -/
  | completed (t : Nat)
  /-- memory not holding a live future was polled -/
  | badPoll (t : Nat)
deriving DecidableEq, Repr

inductive Act where
  | callSpawn (i t a : Nat)
  | callWake (i t : Nat)
  /-- thread `i` proceeds by one access -/
  | thr (i : Nat)
  /-- the dispatcher proceeds by one access; `ready`: what the body returns, if it is at its end -/
  | disp (ready : Bool)
deriving DecidableEq, Repr

structure Cfg where
  /-- tasks of this level in polling order (`channel.tasks`, `async_dispatchers.rs:41`) -/
  ts : List Nat
  /-- priority zero: the dispatcher loops forever instead of being an interrupt handler, `async_dispatchers.rs:82-91` -/
  zero : Bool

def upd {α} (f : Nat → α) (i : Nat) (a : α) : Nat → α := fun j => if j = i then a else f j

/-- Access of a spawning / waking thread: generated `spawn`, `module.rs:172-185`, with `try_allocate` `executor.rs:254-259` and `spawn` `executor.rs:263-269`; waker closure `module.rs:197-200`. -/
def stepThr (s : St) (i : Nat) : Option (St × List Ev) :=
  match s.pc i with
  | .idle => none
  | .s1 t a =>
    if s.running t then some ({ s with pc := upd s.pc i .idle }, [.err t a])
    else some ({ s with running := upd s.running t true, pc := upd s.pc i (.s2 t a) }, [.ok t a])
  | .s2 t a => some ({ s with slot := upd s.slot t (.fresh a), pc := upd s.pc i (.s3 t) }, [])
  | .s3 t => some ({ s with pending := upd s.pending t true, pc := upd s.pc i (.p t) }, [])
  | .w1 t => some ({ s with pending := upd s.pending t true, pc := upd s.pc i (.p t) }, [])
  | .p _ => some ({ s with irq := true, pc := upd s.pc i .idle }, [])

/-- Access of the dispatcher: `async_dispatchers.rs:41-91`, `poll` `executor.rs:278-291`. -/
def stepDisp (c : Cfg) (s : St) (ready : Bool) : Option (St × List Ev) :=
  match s.d with
  | .idle => if s.irq || c.zero then some ({ s with irq := false, d := .run c.ts }, []) else none
  | .run [] => some ({ s with d := .idle }, [])
  | .run (t :: rest) => some ({ s with d := if s.running t then .pend t rest else .run rest }, [])
  | .pend t rest =>
    if s.pending t then some ({ s with pending := upd s.pending t false, d := .poll t rest }, [])
    else some ({ s with d := .run rest }, [])
  | .poll t rest =>
    match s.slot t with
    | .fresh a => some ({ s with slot := upd s.slot t (.begun a), d := .body t rest }, [.started t a, .polled t])
    | .begun _ => some ({ s with d := .body t rest }, [.polled t])
    | .empty | .done => some ({ s with ub := true }, [.badPoll t])
  | .body t rest =>
    if ready then some ({ s with slot := upd s.slot t .done, d := .rel t rest }, [])
    else some ({ s with d := .run rest }, [])
  | .rel t rest => some ({ s with running := upd s.running t false, d := .run rest }, [.completed t])

def step (c : Cfg) (s : St) (a : Act) : Option (St × List Ev) :=
  if s.ub then none else
  match a with
  | .callSpawn i t a => if s.pc i = .idle ∧ t ∈ c.ts then some ({ s with pc := upd s.pc i (.s1 t a) }, []) else none
  | .callWake i t => if s.pc i = .idle ∧ t ∈ c.ts then some ({ s with pc := upd s.pc i (.w1 t) }, []) else none
  | .thr i => stepThr s i
  | .disp r => stepDisp c s r

/-- `AsyncTaskExecutor::new`, `executor.rs:223-229`. -/
def init : St :=
  { running := fun _ => false, pending := fun _ => false, slot := fun _ => .empty, irq := false, pc := fun _ => .idle, d := .idle, ub := false }

def exec (c : Cfg) (s : St) : List Act → Option (St × List Ev)
  | [] => some (s, [])
  | a :: as =>
    match step c s a with
    | none => none
    | some (s1, e1) =>
      match exec c s1 as with
      | none => none
      | some (s2, e2) => some (s2, e1 ++ e2)

end Verif.Executor
