import Verif.HalfPeriod.Model

/-!
# Starting the timer of a monotonic

Register-by-register model of the `_start` functions of the monotonics with a half-period counter. The peripheral may be in any state when `_start`
is called (a boot loader, a driver or a previous user may have left it running, with any counter value, flags and interrupt enables), and as long as it runs it
counts between any two accesses.
-/

namespace Verif.TimerStart

/-- The monotonics that extend a hardware counter by half periods: `rtic-monotonics/src/stm32.rs:301-` (32 bit) and `:438-` (16 bit), `silabs/timer.rs:306-` (16 or 32 bit),
`imxrt.rs:138-`, `nrf/timer.rs:223-`, `nrf/rtc.rs:185-`, `silabs/rtcc.rs:54-`. Not modelled: `silabs/letimer.rs`, whose clock is wrong in any case (C57). -/
inductive Timer where
  | stm32 (bits : Nat)
  | silabsTimer (bits : Nat)
  | imxrt
  | nrfTimer
  | nrfRtc
  | rtcc
deriving DecidableEq, Repr

/-- width of the hardware counter: `imxrt.rs:168,183` and `nrf/timer.rs:243` (32 bits), `nrf/rtc.rs:176-178` (24 bits), `silabs/rtcc.rs:85` -/
def Timer.bits : Timer → Nat
  | .stm32 b => b
  | .silabsTimer b => b
  | .imxrt => 32
  | .nrfTimer => 32
  | .nrfRtc => 24
  | .rtcc => 32

/-- The peripheral, the software half-period counter and the interrupt controller, as far as `_start` is concerned. -/
structure Hw where
  /-- the counter is enabled -/
  run : Bool
  /-- the counter counts its clock (nRF TIMER: register `MODE`; otherwise always) -/
  clocked : Bool
  /-- a match on the half-period compare register also clears the counter (nRF TIMER: register `SHORTS`; otherwise never) -/
  short : Bool
  /-- prescaler in use -/
  psc : Nat
  /-- prescaler in use from the next update event on (STM32) -/
  pscNext : Nat
  /-- value of the counter -/
  cnt : Nat
  /-- number of counter values: it goes from `per - 1` to `0` (`ARR`, `TOP`, `BITMODE`, `FRR`) -/
  per : Nat
  /-- counter value that raises the overflow flag (nRF TIMER: `CC[1]`; otherwise `0`) -/
  ovAt : Nat
  /-- half-period compare register -/
  halfAt : Nat
  /-- the overflow is recorded in its flag (nRF RTC: if enabled in `EVTEN` or `INTEN`; otherwise always) -/
  recO : Bool
  /-- the half-period match is recorded in its flag (nRF RTC as above; Silabs: if the channel is in output compare mode; otherwise always) -/
  recH : Bool
  ovf : Bool
  half : Bool
  /-- flag of the compare register for delays -/
  dyn : Bool
  /-- interrupt enables: overflow, half period, delays -/
  ieO : Bool
  ieH : Bool
  ieD : Bool
  /-- i.MX RT: `ENMOD`, the counter is cleared when it is enabled -/
  enmod : Bool
  /-- software half-period counter (`static $overflow`, `$period`) -/
  hp : Nat
  /-- the timer queue is initialised -/
  tq : Bool
  /-- the interrupt is unmasked in the NVIC -/
  irq : Bool
  /-- history: number of ticks counted since the counter was last given a value -/
  age : Nat
deriving DecidableEq, Repr

/-- The clock of the timer advances once. Hardware, see the reference manuals; the same as `HalfPeriod.tickStep` once everything is configured (`tick_agrees`). -/
def tick (s : Hw) : Hw :=
  if s.run && s.clocked then
    let c := if s.per ≤ s.cnt + 1 then 0 else s.cnt + 1
    { s with
      cnt := if s.short && c == s.halfAt then 0 else c
      ovf := s.ovf || (s.recO && c == s.ovAt)
      half := s.half || (s.recH && c == s.halfAt)
      age := s.age + 1 }
  else s

/-- One access of `_start`. -/
inductive Op where
  /-- STM32: reset of the peripheral through the RCC (C96) -/
  | reset (bits : Nat)
  /-- the counter is disabled -/
  | disable
  /-- the counter is enabled -/
  | enable
  /-- STM32: write of the prescaler, used from the next update event on -/
  | pscPreload (p : Nat)
  /-- nRF, Silabs: write of the prescaler, without effect while the counter runs -/
  | psc (p : Nat)
  /-- the counter wraps after `n` values -/
  | period (n : Nat)
  /-- write of the half-period compare register -/
  | halfCmp (v : Nat)
  /-- nRF TIMER: write of the compare register used as overflow -/
  | ovfCmp (v : Nat)
  /-- Silabs: the channel of the half-period is put into output compare mode -/
  | outputCompare
  /-- nRF RTC: `EVTENSET`/`INTENSET` of overflow and half period -/
  | record
  /-- interrupt enables set: overflow, half period, delays -/
  | ieSet (o h d : Bool)
  /-- interrupt enable register written -/
  | ieWrite (o h d : Bool)
  /-- nRF: `INTENCLR` of all three -/
  | ieClear
  /-- STM32: update event by software -/
  | update
  /-- write of the counter -/
  | setCnt (v : Nat)
  /-- flags cleared: overflow, half period, delays -/
  | clear (o h d : Bool)
  /-- i.MX RT: `ENMOD` -/
  | enmod (b : Bool)
  /-- `$overflow.store(0)` -/
  | storeZero
  /-- `$tq.initialize(..)` -/
  | initQueue
  /-- `set_monotonic_prio(..)`, `NVIC::unmask(..)` -/
  | unmask
deriving DecidableEq, Repr

/-- Effect of one access. -/
def Op.app (s : Hw) : Op → Hw
  | .reset bits => { s with run := false, clocked := true, short := false, psc := 0, pscNext := 0, cnt := 0, per := 2 ^ bits, ovAt := 0, halfAt := 0, recO := true, recH := true, ovf := false, half := false, dyn := false, ieO := false, ieH := false, ieD := false, age := 0 }
  | .disable => { s with run := false }
  | .enable => if s.run then s else if s.enmod then { s with run := true, cnt := 0, age := 0 } else { s with run := true }
  | .pscPreload p => { s with pscNext := p }
  | .psc p => if s.run then s else { s with psc := p }
  | .period n => { s with per := n }
  | .halfCmp v => { s with halfAt := v }
  | .ovfCmp v => { s with ovAt := v }
  | .outputCompare => { s with recH := true }
  | .record => { s with recO := true, recH := true }
  | .ieSet o h d => { s with ieO := s.ieO || o, ieH := s.ieH || h, ieD := s.ieD || d }
  | .ieWrite o h d => { s with ieO := o, ieH := h, ieD := d }
  | .ieClear => { s with ieO := false, ieH := false, ieD := false }
  | .update => { s with psc := s.pscNext, cnt := 0, ovf := true, dyn := true, age := 0 }
  | .setCnt v => { s with cnt := v, age := 0 }
  | .clear o h d => { s with ovf := s.ovf && !o, half := s.half && !h, dyn := s.dyn && !d }
  | .enmod b => { s with enmod := b }
  | .storeZero => { s with hp := 0 }
  | .initQueue => { s with tq := true }
  | .unmask => { s with irq := true }

/-- The accesses of `_start`, in program order; `p` is the value written to the prescaler (C65).
Assertions before the first access of the peripheral's counter, and the enabling of bus clocks, are left out (C65, C96). Silabs TIMER: `EN` and the `STOP`/`START` commands act on the same field `run` (the counter may count between `EN` and `STOP`).
`stm32.rs:321-370` and `:464-513`, `silabs/timer.rs:317-373`, `imxrt.rs:159-204`, `nrf/timer.rs:241-290`, `nrf/rtc.rs:202-254`, `silabs/rtcc.rs:62-91`. -/
def Timer.prog (p : Nat) : Timer → List Op
  | .stm32 b =>
    [.reset b, .disable, .pscPreload p, .ieSet true false false, .halfCmp (2 ^ (b - 1)), .ieSet false true false, .update, .setCnt 1,
     .clear true true true, .initQueue, .storeZero, .enable, .unmask]
  | .silabsTimer b =>
    [.disable, .psc p, .outputCompare, .enable, .disable, .period (2 ^ b), .setCnt 1, .halfCmp (2 ^ (b - 1)), .clear true true true,
     .ieWrite true true false, .initQueue, .storeZero, .enable, .unmask]
  | .imxrt =>
    [.disable, .clear true true true, .enmod true, .period (2 ^ 32), .storeZero, .ieWrite true true true, .halfCmp 0x80000000,
     .initQueue, .enable, .enmod false, .unmask]
  | .nrfTimer =>
    [.psc p, .period (2 ^ 32), .ieClear, .ovfCmp 0, .halfCmp 0x80000000, .setCnt 0, .enable, .clear false false true, .clear true false false,
     .clear false true false, .storeZero, .initQueue, .ieSet true true true, .unmask]
  | .nrfRtc =>
    [.psc 0, .ieClear, .halfCmp 0x800000, .setCnt 0, .enable, .clear true false false, .clear false false true, .clear false true false,
     .storeZero, .initQueue, .ieSet true true true, .record, .unmask]
  | .rtcc => [.enable, .ieSet true true true, .outputCompare, .halfCmp 0x80000000, .initQueue, .unmask]

/-- The counter value after `_start`: `stm32.rs:345`, `silabs/timer.rs:348`. -/
def Timer.first : Timer → Nat
  | .stm32 _ => 1
  | .silabsTimer _ => 1
  | _ => 0

/-- An execution of the accesses `prog`: between any two of them the clock of the timer may advance any number of times. -/
inductive Run : Hw → List Op → Hw → Prop where
  | done (s : Hw) : Run s [] s
  | tick {s s' : Hw} {p : List Op} (h : Run (tick s) p s') : Run s p s'
  | op {s s' : Hw} {o : Op} {p : List Op} (h : Run (o.app s) p s') : Run s (o :: p) s'

/-- The interrupt handler on this state: as `HalfPeriod.service` (same lines), without the assertions. -/
def serviceO (s : Hw) : Hw := if s.ovf then { s with ovf := false, hp := s.hp + 1 } else s
def serviceH (s : Hw) : Hw := if s.half then { s with half := false, hp := s.hp + 1 } else s
def service (o : HalfPeriod.Order) (s : Hw) : Hw :=
  match o with
  | .overflowFirst => serviceH (serviceO s)
  | .halfFirst => serviceO (serviceH s)

/-- After `_start`: the clock of the timer advances, the interrupt handler runs. -/
def after (o : HalfPeriod.Order) (s : Hw) (evs : List HalfPeriod.Ev) : Hw :=
  evs.foldl (fun s e => match e with | .tick => tick s | .service => service o s) s

/-- The panic of the parity assertion in `on_interrupt` (as `HalfPeriod.serviceOvf`/`serviceHalf`). -/
def panics (o : HalfPeriod.Order) (s : Hw) : Bool :=
  match o with
  | .overflowFirst => (s.ovf && s.hp % 2 == 0) || (s.half && (serviceO s).hp % 2 != 0)
  | .halfFirst => (s.half && s.hp % 2 != 0) || (s.ovf && (serviceH s).hp % 2 == 0)

end Verif.TimerStart
