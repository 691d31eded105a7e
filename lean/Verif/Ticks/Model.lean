/-!
# Tick arithmetic of the timer queue

Model of `rtic-time/src/timer_queue/tick_type.rs` and of the deadline computations in
`rtic-time/src/timer_queue.rs` and `rtic-time/src/monotonic/embedded_hal_macros.rs`.

The Rust code implements the trait for `u32` and `u64` with the same text; the model is
generic in the width `w` (`BitVec w`), so both are instances.
-/

namespace Verif.Ticks

/-- `TimerQueueTicks::compare`, `rtic-time/src/timer_queue/tick_type.rs:33-35` (u32) and `:43-45` (u64):
`(self.wrapping_sub(other) as iN).cmp(&0)`. -/
def compare {w : Nat} (a b : BitVec w) : Ordering :=
  Ord.compare ((a - b).toInt) 0

/-- `TimerQueueTicks::is_at_least`, `tick_type.rs:18-24`. -/
def isAtLeast {w : Nat} (a b : BitVec w) : Bool :=
  match compare a b with
  | .lt => false
  | .eq => true
  | .gt => true

/-- `TimerQueueTicks::ONE_TICK`, `tick_type.rs:31` and `:41`. -/
def oneTick {w : Nat} : BitVec w := 1#w

/-- `TimerQueueTicks::wrapping_add`, `tick_type.rs:36-38` and `:46-48`. -/
def wrappingAdd {w : Nat} (a b : BitVec w) : BitVec w := a + b

/-- The deadline computed by `TimerQueue::delay` (`rtic-time/src/timer_queue.rs:179-184`) and
by `TimerQueue::timeout_after` (`timer_queue.rs:165-169`): wrapping sum, and one more
tick unless the sum equals `now`. -/
def deadline {w : Nat} (now duration : BitVec w) : BitVec w :=
  let timeout := wrappingAdd now duration
  if now ≠ timeout then wrappingAdd timeout oneTick else timeout

/-- The readiness test at the start of `Delay::poll`, `timer_queue.rs:220-222`: the
future is ready iff `Backend::now().is_at_least(this.instant)`. -/
def delayReady {w : Nat} (now instant : BitVec w) : Bool := isAtLeast now instant

/-- The busy loop of the blocking `embedded_hal` delays,
`rtic-time/src/monotonic/embedded_hal_macros.rs:8-18` (`:20-30`, `:32-42` have the same text):
`while now() < done {}` over the sequence of clock values read by the loop. Returns the remaining
readings when the loop exits (the head is the reading that made it exit), `none` if it never
exits on these readings. Simplification: `fugit::Instant`'s `+` and `<` are outside the repository; they
are modelled by the same wrapping addition and half-range comparison (this is what fugit documents). -/
def busyLoop {w : Nat} (done : BitVec w) : List (BitVec w) → Option (List (BitVec w))
  | [] => none
  | now :: rest => if compare now done = .lt then busyLoop done rest else some (now :: rest)

/-- `fugit::Duration::nanos_at_least` (`per = 10^9`), `micros_at_least` (`10^6`), `millis_at_least` (`10^3`) for a tick of `nom/den` seconds, as used in `embedded_hal_macros.rs:11, 23, 35, 55, 63, 71`:
the number of ticks, rounded up. (The function is outside the repository: this is its documentation. It panics if the result does not fit.) -/
def atLeastTicks (nom den per x : Nat) : Nat := (x * den + (nom * per - 1)) / (nom * per)

/-- The instant at which the `embedded_hal` delays of `x` units end: blocking, `embedded_hal_macros.rs:8-42`, and asynchronous, `embedded_hal_macros.rs:52-74` (`delay`, whose deadline is the same expression). -/
def halDeadline {w : Nat} (nom den per : Nat) (now : BitVec w) (x : Nat) : BitVec w := deadline now (BitVec.ofNat w (atLeastTicks nom den per x))

end Verif.Ticks
