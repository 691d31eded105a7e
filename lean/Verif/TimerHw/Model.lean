import Verif.TimerQueue.Model
import Verif.Backends.Spec

/-!
# The timer queue on concrete timer hardware

Composition of the timer queue (`Verif.TimerQueue`, where the hardware is an abstract "armed for time `c`") with the compare registers of the backends (`Verif.Backends`):
`set_compare` is a read of the clock followed by a write of the register, the register is as wide as the timer and matches whenever the counter shows its value, half-period clocks
raise the same interrupt at counter overflows, and SysTick has no compare register but pends its exception at every tick. All interleavings of handler, delays and clock.

Ticks are 64 bits (`type Ticks = u64` in all these backends). The clock read is taken as exact (that it is: C32, C34). On ESP32 `pend_interrupt`
runs the handler at once with interrupts disabled (`esp32c3.rs:123-133`): of the executions here, those in which the handler starts right after `pend` (the clock reads of the handler are then exact, those of preemptible callers need not be, C69).
Not included: LETIMER (its clock is wrong, C57).
-/

namespace Verif.TimerHw

open Backends (Backend)

/-- The timers. -/
inductive Hw where
  /-- a free-running counter with a compare register -/
  | compare (bk : Backend)
  /-- `systick.rs`: an exception at every tick, `set_compare` is empty (`systick.rs:136-139`) -/
  | systick
  /-- `esp32c3.rs:95-114`, `esp32c6.rs:96-115`: a 52-bit counter with a comparator as wide as the counter; `set_compare` writes both halves of the instant and loads them -/
  | systimer
deriving DecidableEq, Repr

/-- Whether `enable_timer`/`disable_timer` are the empty defaults (`rtic-time/src/timer_queue/backend.rs:32, 40`); `stm32.rs:403-409, 546-552` and `silabs/timer.rs:403-409` switch the
compare interrupt. -/
def Hw.noop : Hw → Bool
  | .compare (.stm32 _) | .compare (.silabsTimer _) => false
  | _ => true

/-- Upper bound for the number of ticks during `set_compare` between clock read and register write, given that it is at most `d`: the nRF RTC does both in one critical section within one
tick (`nrf/rtc.rs:288-291`). -/
def Hw.dur (d : Nat) : Hw → Nat
  | .compare .nrfRtc => 0
  | _ => d

/-- How late the interrupt may come: two ticks on the nRF RTC, the duration of `set_compare` on the RP chips, else not at all. -/
def Hw.slack (d : Nat) : Hw → Nat
  | .compare .nrfRtc => 2
  | .compare .rp => d
  | _ => 0

/-- Parameters of the abstract timer queue for this hardware. -/
def Hw.cfg (hw : Hw) (d : Nat) : TimerQueue.Cfg := { w := 64, noop := hw.noop, sl := hw.slack d }

structure St where
  /-- timer queue, handler, delays, interrupt flags; its field `cmp` is not used -/
  q : TimerQueue.St
  /-- `set_compare` has read the clock, with this result -/
  rd : Option Nat
  /-- value of the compare register and time at which it was written; `none`: not written since the last `clear_compare_flag` (which switches the compare channel off in `silabs/rtcc.rs:137-138`) -/
  reg : Option (Nat × Nat)

inductive Act where
  /-- one tick; interrupts for other reasons (`x`: compare flag, `y`: other source, `z`: pended) may always occur -/
  | tick (x y z : Bool)
  /-- the clock read of `set_compare` -/
  | read
  /-- the register write of `set_compare` -/
  | write
  /-- anything else: a delay is created, polled, dropped; a step of the handler -/
  | base (a : TimerQueue.Act)
deriving DecidableEq, Repr

/-- The compare register matches when the clock shows `u`. -/
def matches_ (hw : Hw) (reg : Option (Nat × Nat)) (u : Nat) : Bool :=
  match hw, reg with
  | .compare bk, some (v, tw) => decide (tw + bk.deaf < u ∧ u % 2 ^ bk.width = v)
  | .systimer, some (v, tw) => decide (tw < u ∧ u % 2 ^ 52 = v)
  | _, _ => false

/-- The counter overflows when the clock shows `u`, and this raises the interrupt. -/
def overflows (hw : Hw) (u : Nat) : Bool :=
  match hw with
  | .compare bk => bk.periodIrq && decide (u % 2 ^ bk.width = 0)
  | .systick | .systimer => false

def Hw.isSystick : Hw → Bool
  | .systick => true
  | _ => false

/-- The value which `set_compare` writes for instant `t` when its clock read gave `tn` (`compareValue`: see `Verif.Backends.Model`). -/
def Hw.value (hw : Hw) (t tn : Nat) : Nat :=
  match hw with
  | .compare bk => bk.compareValue (BitVec.ofNat 64 t) (BitVec.ofNat 64 tn)
  | .systick => 0
  -- `trgt(0).lo = instant & 0xFFFFFFFF`, `trgt(0).hi = instant >> 32` (20 bits implemented), `esp32c3.rs:103-110`
  | .systimer => let i := BitVec.ofNat 64 t; ((i &&& 0xFFFFFFFF#64).toNat + (i >>> 32).toNat % 2 ^ 20 * 2 ^ 32)

/-- One step. `s.q.cmp` plays no role (it is reset). -/
def step (hw : Hw) (d : Nat) (s : St) : Act → Option (St × List TimerQueue.Ev)
  | .tick x y z =>
    let u := s.q.now + 1
    (TimerQueue.step (hw.cfg d) { s.q with cmp := none } (.tick (matches_ hw s.reg u || x) (overflows hw u || y) (hw.isSystick || z))).map
      fun r => ({ s with q := r.1 }, r.2)
  | .read =>
    match s.q.h, s.rd with
    | .h3b _, none => some ({ s with rd := some s.q.now }, [])
    | _, _ => none
  | .write =>
    match s.q.h, s.rd with
    | .h3b t, some tn =>
      if s.q.now ≤ tn + hw.dur d then
        some ({ s with q := { s.q with h := .h4 t, req := some t }, rd := none, reg := some (hw.value t tn, s.q.now) }, [])
      else none
    | _, _ => none
  | .base (.tick _ _ _) => none
  | .base (.arm _) => none
  | .base a =>
    (TimerQueue.step (hw.cfg d) s.q a).map fun r =>
      -- `clear_compare_flag`
      ({ s with q := r.1, reg := if a = .hgo ∧ s.q.h = .h0 then none else s.reg }, r.2)

def init (hw : Hw) : St := { q := TimerQueue.init hw.noop, rd := none, reg := none }

/-- An execution, collecting the events (oldest first). -/
def exec (hw : Hw) (d : Nat) (s : St) : List Act → Option (St × List TimerQueue.Ev)
  | [] => some (s, [])
  | a :: as =>
    match step hw d s a with
    | none => none
    | some (s1, e) =>
      match exec hw d s1 as with
      | none => none
      | some (s2, es) => some (s2, e ++ es)

def Reach (hw : Hw) (d : Nat) (s : St) (tr : List TimerQueue.Ev) : Prop := ∃ as, exec hw d (init hw) as = some (s, tr)

end Verif.TimerHw
