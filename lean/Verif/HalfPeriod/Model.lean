/-!
# Half-period clock extension

Model of `rtic-time/src/half_period_counter.rs` and of the `on_interrupt` bookkeeping of the
backends that use it.
-/

namespace Verif.HalfPeriod

/-- `calculate_now`, `rtic-time/src/half_period_counter.rs:196-239`. The output type `O` of the code is
`u64` in all backends; here a `BitVec m` for any `m`. `bits` is `T::BITS` (`:126-129`), `halfPeriods` and `timer` are the values
of the two closures, already converted to `O` (`:211-215`). The arithmetic of lines 236-238 is reproduced literally:
shift, and, xor, add (the machine operations on `u64`; `C31_no_overflow` shows the checked `+` does not overflow). -/
def calculateNow {m : Nat} (bits : Nat) (halfPeriods timer : BitVec m) : BitVec m :=
  let upperHalf := halfPeriods <<< (bits - 1)
  let lowerHalf := (1#m <<< (bits - 1)) &&& upperHalf
  upperHalf + (lowerHalf ^^^ timer)

/-- Which of the two flags the interrupt handler looks at first. `overflowFirst`:
`rtic-monotonics/src/stm32.rs:411-430` and `:554-573`, `nrf/rtc.rs:269-281`, `nrf/timer.rs`, `imxrt.rs:242-258`, `silabs/timer.rs:411-432`;
`halfFirst`: `silabs/rtcc.rs:141-165`, `silabs/letimer.rs:166-190`. -/
inductive Order where
  | overflowFirst
  | halfFirst
deriving DecidableEq, Repr

/-- Hardware and software state of a half-period extended timer. -/
structure St where
  /-- true number of ticks since the timer value zero (the hardware counter is `t % 2^bits`) -/
  t : Nat
  /-- the software half-period counter (`static $overflow`) -/
  hp : Nat
  /-- hardware overflow flag (`uif`, `events_ovrflw`, ...) -/
  ovf : Bool
  /-- hardware half-period compare flag -/
  half : Bool
  /-- a parity assertion of `on_interrupt` has fired -/
  panicked : Bool
deriving DecidableEq, Repr

/-- The timer counts one tick: the hardware sets the overflow flag when the counter wraps to zero and the
half flag when it reaches `2^(bits-1)` (`half_period_counter.rs:41-45`; compare value configured e.g. in `stm32.rs:338`, `nrf/rtc.rs:214`). -/
def tickStep (bits : Nat) (s : St) : St :=
  let t' := s.t + 1
  { s with
    t := t'
    ovf := s.ovf || (t' % 2 ^ bits == 0)
    half := s.half || (t' % 2 ^ bits == 2 ^ (bits - 1)) }

/-- `if overflow flag { clear; prev = fetch_add(1); assert!(!prev.is_multiple_of(2)) }`, `stm32.rs:413-420`. -/
def serviceOvf (s : St) : St :=
  if s.ovf then { s with ovf := false, hp := s.hp + 1, panicked := s.panicked || (s.hp % 2 == 0) } else s

/-- `if half flag { clear; prev = fetch_add(1); assert!(prev.is_multiple_of(2)) }`, `stm32.rs:422-429`. -/
def serviceHalf (s : St) : St :=
  if s.half then { s with half := false, hp := s.hp + 1, panicked := s.panicked || (s.hp % 2 != 0) } else s

/-- `TimerQueueBackend::on_interrupt` of the half-period based backends (lines as for `Order`). Simplification: the
handler is one step (no tick between reading the two flags); `imxrt` and the silabs backends read both flags at once, `stm32` and `nrf` read the second flag
after the first is handled. -/
def service (o : Order) (s : St) : St :=
  match o with
  | .overflowFirst => serviceHalf (serviceOvf s)
  | .halfFirst => serviceOvf (serviceHalf s)

/-- Start of the timer: counter `t0` (`stm32.rs:345` and `silabs/timer.rs:348` start at 1, all others at 0), no flag, counter zero. -/
def start (t0 : Nat) : St := { t := t0, hp := 0, ovf := false, half := false, panicked := false }

/-- Events: the timer ticks, or the interrupt handler runs. -/
inductive Ev where
  | tick
  | service
deriving DecidableEq, Repr

def stepEv (bits : Nat) (o : Order) (s : St) : Ev → St
  | .tick => tickStep bits s
  | .service => service o s

def run (bits : Nat) (o : Order) (s : St) (evs : List Ev) : St := evs.foldl (stepEv bits o) s

end Verif.HalfPeriod
