/-!
# Pending the timer interrupt while interrupts are disabled

`Delay::poll` (`rtic-time/src/timer_queue.rs:243-245`) calls `TimerQueueBackend::pend_interrupt` when it has inserted the earliest delay. On most backends this sets the pending bit of the interrupt
(`NVIC::pend`, `rtic-monotonics/src/stm32.rs:399-401,542-544`, `rp2040.rs:117-119`, `rp235x.rs:119-121`, `nrf/timer.rs:337-339`, `nrf/rtc.rs:320-322`, `imxrt.rs:238-240`,
`silabs/timer.rs:399-401`, `silabs/rtcc.rs:167-169`, `silabs/letimer.rs:192-194`; `SCB::set_pendst`, `systick.rs:144-146`). The ESP32-C3/C6 have no such bit; there the handler is called like a function between `riscv::interrupt::disable()` and
`riscv::interrupt::enable()` (`rtic-monotonics/src/esp32c3.rs:123-133`, `esp32c6.rs:124-134`).

One core; a single flag tells whether interrupts are taken (`mstatus.MIE`; PRIMASK on Cortex-M). Simplifications: priorities and thresholds are left out: while interrupts are enabled, any interrupt may be
taken at any time, and its handler runs with interrupts enabled (nesting). `critical_section::with` is that of the crates `riscv` and `cortex-m`: it disables interrupts and at the end enables them again if they were
enabled before.
-/

namespace Verif.PendCall

inductive Backend where
  /-- sets the pending bit of the interrupt -/
  | pendBit
  /-- `esp32c3.rs`, `esp32c6.rs` -/
  | call
deriving DecidableEq, Repr

inductive Frame where
  /-- a task, a dispatcher or idle -/
  | task (t : Nat)
  /-- `init`, called by `main` with interrupts disabled (`rtic-macros/src/codegen/pre_init.rs:12`, `main.rs:52-56`); the interrupts of the tasks are already enabled at the controller (`pre_init.rs:23`) -/
  | init
  /-- inside `critical_section::with`; whether interrupts were enabled before -/
  | cs (was : Bool)
  /-- inside `pend_interrupt`: the timer handler runs -/
  | pend
deriving DecidableEq, Repr

structure St where
  stack : List Frame
  /-- interrupts are taken -/
  ie : Bool
deriving DecidableEq, Repr

inductive Act where
  /-- an interrupt is taken: its handler, number `t`, starts -/
  | irq (t : Nat)
  /-- the handler returns -/
  | ret
  /-- `init` returns: `main` moves the resources, enables interrupts (`post_init.rs:6-47`, `main.rs:55-59`) and calls idle -/
  | initDone
  /-- `critical_section::with` begins, ends -/
  | csBegin
  | csEnd
  /-- the running code polls a delay that becomes the earliest one, `timer_queue.rs:243-245` -/
  | pend
  /-- `pend_interrupt` returns -/
  | pendEnd
deriving DecidableEq, Repr

/-- One action; `none`: not possible. -/
def step (b : Backend) (s : St) : Act → Option St
  | .irq t => if s.ie then some { s with stack := .task t :: s.stack } else none
  | .ret =>
    match s.stack with
    -- the interrupted code goes on with interrupts enabled, as they were when the interrupt was taken; idle (the last frame) never returns
    | .task _ :: x :: rest => if s.ie then some { stack := x :: rest, ie := true } else none
    | _ => none
  | .initDone =>
    match s.stack with
    | [.init] => some { stack := [.task 0], ie := true }
    | _ => none
  | .csBegin => some { stack := .cs s.ie :: s.stack, ie := false }
  | .csEnd =>
    match s.stack with
    | .cs was :: rest => some { stack := rest, ie := s.ie || was }
    | _ => none
  | .pend =>
    match b with
    | .pendBit => some s
    -- `esp32c3.rs:130-131`
    | .call => some { stack := .pend :: s.stack, ie := false }
  | .pendEnd =>
    match s.stack with
    -- `esp32c3.rs:132`
    | .pend :: rest => some { stack := rest, ie := true }
    | _ => none

/-- `main` calls `init`. -/
def start : St := { stack := [.init], ie := false }

def exec (b : Backend) (s : St) : List Act → Option St
  | [] => some s
  | a :: as =>
    match step b s a with
    | none => none
    | some s1 => exec b s1 as

end Verif.PendCall
