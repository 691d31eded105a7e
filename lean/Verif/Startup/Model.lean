import Verif.Analysis.Props

/-!
# Startup

The generated `main` (`rtic-macros/src/codegen/main.rs:41-59`, `pre_init.rs:8-26`, `post_init.rs:6-47`, `bindings/cortex.rs:204-265`; the statements are those computed by
`Verif.Analysis.mainStmts`) on a processor whose interrupts may become pending at any time.

Simplifications: a handler stays pending after it ran (it may run again at any time), preemption among handlers and masking after startup are left out: both only allow more runs of
tasks. `init` may do anything except enable interrupts (that needs `unsafe`; a critical section in `init` restores the masked state). Before the first statement of `main` all
interrupts are disabled in the NVIC and no configurable exception is pending, as after reset.
-/

namespace Verif.Startup

open Verif.Analysis

/-- what the thread does after startup -/
inductive Thread where
  | main
  | idle (name : Ident)
  | zeroDispatcher
  | spin
deriving DecidableEq, Repr

structure St where
  /-- rest of `main` -/
  todo : List Stmt
  /-- PRIMASK -/
  masked : Bool := false
  /-- priorities written to NVIC/SCB, last write first -/
  prio : List (Ident × Nat) := []
  /-- interrupts enabled in the NVIC -/
  unmasked : List Ident := []
  pending : List Ident := []
  /-- `init` is running -/
  inInit : Bool := false
  /-- `init` has returned -/
  initReturned : Bool := false
  /-- shared resources written to their static -/
  wroteShared : List Ident := []
  wroteLocal : List Ident := []
  thread : Thread := .main
deriving DecidableEq, Repr

inductive Act where
  /-- an interrupt (or exception) becomes pending, caused by hardware or by software (`spawn` in `init` pends the dispatcher) -/
  | pend (v : Ident)
  /-- next statement of `main` -/
  | exec
  | initReturns
  /-- code of task `t` runs, in the handler `v` of priority `q` (`none`: in thread mode) -/
  | run (t : Ident) (v : Option (Ident × Nat))
deriving DecidableEq, Repr

/-- effect of a statement of `main` -/
def execStmt (s : St) : Stmt → St
  | .disableInterrupts => { s with masked := true }
  | .setPriority v p => { s with prio := (v, p) :: s.prio }
  | .unmask v => { s with unmasked := v :: s.unmasked }
  | .callInit => { s with inInit := true }
  | .writeShared r => { s with wroteShared := r :: s.wroteShared }
  | .writeLocal r => { s with wroteLocal := r :: s.wroteLocal }
  | .enableInterrupts => { s with masked := false }
  | .callIdle n => { s with thread := .idle n }
  | .zeroDispatcher => { s with thread := .zeroDispatcher }
  | .spin => { s with thread := .spin }

/-- the processor may take `v`: not masked, pending, enabled (exceptions are always enabled) -/
def takes (tg : Target) (s : St) (v : Ident) : Prop := s.masked = false ∧ v ∈ s.pending ∧ (v ∈ s.unmasked ∨ tg.isException v = true)

inductive Step (tg : Target) (p : Program) (s : St) : Act → St → Prop
  | pend (v) (h : tg.isException v = true → s.todo ≠ p.main) : Step tg p s (.pend v) { s with pending := v :: s.pending }
  | exec (st rest) (h : s.todo = st :: rest) (hi : s.inInit = false) : Step tg p s .exec (execStmt { s with todo := rest } st)
  | initReturns (hi : s.inInit = true) : Step tg p s .initReturns { s with inInit := false, initReturned := true }
  /-- hardware task, `codegen/hardware_tasks.rs:19-50` -/
  | hardware (v q t) (h : (v, q, t) ∈ p.hwHandlers) (ht : takes tg s v) : Step tg p s (.run t (some (v, q))) s
  /-- dispatcher polling a spawned task, `codegen/async_dispatchers.rs:62-81` -/
  | software (v q ts t) (h : (some v, q, ts) ∈ p.dispatchers) (hm : t ∈ ts) (ht : takes tg s v) : Step tg p s (.run t (some (v, q))) s
  | idle (n) (h : s.thread = .idle n) : Step tg p s (.run n none) s
  /-- the priority 0 dispatcher, `codegen/async_dispatchers.rs:82-91` -/
  | zero (q ts t) (h : (none, q, ts) ∈ p.dispatchers) (hm : t ∈ ts) (ht : s.thread = .zeroDispatcher) : Step tg p s (.run t none) s

/-- reachable from the entry of `main` -/
inductive Reach (tg : Target) (p : Program) : St → Prop
  | start : Reach tg p { todo := p.main }
  | step {s a s'} (h : Reach tg p s) (hs : Step tg p s a s') : Reach tg p s'

end Verif.Startup
