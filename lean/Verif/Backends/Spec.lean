import Verif.Backends.Model

/-!
# Specification vocabulary for the backends

A counter of `b` bits shows `u % 2^b` at true time `u`. A compare register with value `v` written at time `tw` raises the interrupt at every later time at which the
counter shows `v`. On the nRF RTC a match less than two ticks after the write is ignored (errata cited in `nrf/rtc.rs:297-299`).
-/

namespace Verif.Backends

/-- hardware reaction time of the compare register: matches at `tw + 1, ..., tw + deaf` are not seen -/
def Backend.deaf : Backend → Nat
  | .nrfRtc => 1
  | _ => 0

/-- at time `u` the compare register (written with `v` at `tw`) matches -/
def CompareMatch (bk : Backend) (tw v u : Nat) : Prop :=
  tw + bk.deaf < u ∧ u % 2 ^ bk.width = v

/-- at time `u` the interrupt handler is triggered: compare match, or (half-period clocks) the counter overflows. `tn` is the time of the
clock read inside `set_compare`: an overflow after it stays pending. -/
def Triggers (bk : Backend) (tn tw v u : Nat) : Prop :=
  CompareMatch bk tw v u ∨ (bk.periodIrq = true ∧ tn < u ∧ u % 2 ^ bk.width = 0)

/-- how late the wake-up may come: nothing, except two ticks on the nRF RTC and the execution time of `set_compare` on the RP chips -/
def Backend.slack (bk : Backend) (tn tw : Nat) : Nat :=
  match bk with
  | .nrfRtc => 2
  | .rp => tw - tn
  | _ => 0

/-- the value `set_compare` computes for the instant `i` when the clock read gives time `tn` -/
def written (bk : Backend) (i tn : Nat) : Nat := bk.compareValue (BitVec.ofNat 64 i) (BitVec.ofNat 64 tn)

end Verif.Backends
