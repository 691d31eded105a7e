/-!
# Starting a monotonic: prescaler and reload values

Model of the computations in the `_start`/`start` functions of the backends with a selectable tick rate. Arguments are `u32` values (`< 2^32`); `none` is a panic (or, for `nrf/timer.rs`, a compile error).
-/

namespace Verif.Backends

/-- Timers with a selectable tick rate. -/
inductive RateTimer where
  /-- `systick.rs` -/
  | systick
  /-- `stm32.rs` -/
  | stm32
  /-- `silabs/timer.rs` -/
  | silabsTimer
  /-- `nrf/timer.rs` -/
  | nrfTimer
  /-- `silabs/letimer.rs` -/
  | letimer
deriving DecidableEq, Repr

/-- `SystickBackend::_start`, `systick.rs:95-104`: the reload value. `sysclk / timer_hz - 1` is checked arithmetic: it panics for `sysclk = 0` (without overflow checks it wraps, and the next assertion panics). -/
def systickReload (sysclk hz : Nat) : Option Nat :=
  if hz = 0 then none
  else if sysclk % hz ≠ 0 then none
  else if sysclk / hz = 0 then none
  else
    let reload := sysclk / hz - 1
    if ¬ reload ≤ 0x00ffffff then none
    else if ¬ reload > 0 then none
    else some reload

/-- `_start` of the STM32 timers, `stm32.rs:329-332` and `:472-475`: the 16-bit prescaler. -/
def stm32Psc (clk hz : Nat) : Option Nat :=
  if hz = 0 then none
  else if clk % hz ≠ 0 then none
  else if clk / hz = 0 then none
  else if clk / hz - 1 < 2 ^ 16 then some (clk / hz - 1)
  else none

/-- `_start` of the Silabs timers, `silabs/timer.rs:330-337`: the value passed to `Presc::from_bits`, which keeps the 10 bits of the hardware field ("max divisor 1024"). -/
def silabsPsc (clk hz : Nat) : Option Nat :=
  if hz = 0 then none
  else if clk % hz ≠ 0 then none
  else if clk / hz = 0 then none
  else if clk / hz - 1 < 2 ^ 16 then some ((clk / hz - 1) % 2 ^ 10)
  else none

/-- `PRESCALER`, `nrf/timer.rs:124-136` -/
def nrfPrescaler (hz : Nat) : Option Nat :=
  match hz with
  | 16000000 => some 0
  | 8000000 => some 1
  | 4000000 => some 2
  | 2000000 => some 3
  | 1000000 => some 4
  | 500000 => some 5
  | 250000 => some 6
  | 125000 => some 7
  | 62500 => some 8
  | 31250 => some 9
  | _ => none

/-- `presc`, `silabs/letimer.rs:75-85` -/
def letimerPresc (hz : Nat) : Option Nat :=
  match hz with
  | 32768 => some 0
  | 16384 => some 1
  | 8192 => some 2
  | 4096 => some 3
  | 2048 => some 4
  | 1024 => some 5
  | 512 => some 6
  | 256 => some 7
  | _ => none

/-- The value written into the prescaler (reload) field by `start`, for timer clock `clk` and tick rate `hz`. -/
def RateTimer.start : RateTimer → Nat → Nat → Option Nat
  | .systick, clk, hz => systickReload clk hz
  | .stm32, clk, hz => stm32Psc clk hz
  | .silabsTimer, clk, hz => silabsPsc clk hz
  | .nrfTimer, _, hz => nrfPrescaler hz
  | .letimer, _, hz => letimerPresc hz

end Verif.Backends
