import Verif.HalfPeriod.Model

/-!
# Timer backends: compare registers, split 64-bit reads, SysTick, monotonic interrupt priority

Model of the hardware-independent arithmetic of `rtic-monotonics/src`. Time is the unbounded number of ticks; the code sees it modulo `2^64`.
-/

namespace Verif.Backends

/-- The backends whose compare register is narrower than the 64-bit clock. (`silabs/letimer.rs` is treated separately, see `letimerNow`; the
ESP32 system timer has a full-width compare register and SysTick has none.) -/
inductive Backend where
  /-- `stm32.rs` with a 16- or 32-bit timer -/
  | stm32 (wide : Bool)
  /-- `silabs/timer.rs` with a 16- or 32-bit timer -/
  | silabsTimer (wide : Bool)
  /-- `silabs/rtcc.rs` -/
  | silabsRtcc
  /-- `rp2040.rs` and `rp235x.rs` -/
  | rp
  /-- `nrf/rtc.rs` -/
  | nrfRtc
  /-- `nrf/timer.rs` -/
  | nrfTimer
  /-- `imxrt.rs` -/
  | imxrt
deriving DecidableEq, Repr

/-- Width of counter and compare register (`stm32.rs:229-240,583-595`: `u16`/`u32` timers; `nrf/rtc.rs:286` `0xff_ffff`; `u32` else). -/
def Backend.width : Backend → Nat
  | .stm32 wide | .silabsTimer wide => if wide then 32 else 16
  | .nrfRtc => 24
  | _ => 32

/-- Whether the same interrupt handler also runs at every overflow of the counter (half-period clocks: `stm32.rs:338-360`,
`nrf/rtc.rs:236-244`, `nrf/timer.rs:277-283`, `imxrt.rs:175-182`, `silabs/rtcc.rs:73-77`, `silabs/timer.rs:360-364`). The RP timers count 64 bits in hardware and only use the alarm. -/
def Backend.periodIrq : Backend → Bool
  | .rp => false
  | _ => true

/-- `compute_compare_value`, `stm32.rs:283-298` (`T::try_from(instant.wrapping_sub(now)).is_ok()`), and the same test written as
`instant.wrapping_sub(now) <= MAX` in `rp2040.rs:94-111`, `rp235x.rs:96-113`, `silabs/rtcc.rs:113-131`. `b` is the register width. -/
def checkedCompare (b : Nat) (instant now : BitVec 64) : Nat :=
  if (instant - now).toNat ≤ 2 ^ b - 1 then instant.toNat % 2 ^ b else 0

/-- `set_compare` of the nRF RTC, `nrf/rtc.rs:283-313`: like `checkedCompare`, but at least three ticks ahead. -/
def rtcCompare (instant now : BitVec 64) : Nat :=
  if (instant - now).toNat ≤ 0xffffff then
    (if (instant - now).toNat < 3 then now + 3#64 else instant).toNat % 2 ^ 24
  else 0

/-- `instant as u32`, `nrf/timer.rs:327-330`, `imxrt.rs:220-231`. -/
def truncCompare (b : Nat) (instant : BitVec 64) : Nat := instant.toNat % 2 ^ b

/-- The value which `set_compare(instant)` writes into the compare register when its own clock read gave `now`. -/
def Backend.compareValue (bk : Backend) (instant now : BitVec 64) : Nat :=
  match bk with
  | .nrfRtc => rtcCompare instant now
  | .nrfTimer | .imxrt => truncCompare bk.width instant
  | _ => checkedCompare bk.width instant now

/-! ## RP2040 / RP235x: 64-bit time from two 32-bit registers -/

/-- The loop of `now`, `rp2040.rs:83-91` (`rp235x.rs:85-93`). `c k` is the value of the 64-bit counter at the moment of the `k`-th register
read; `hi0` was read at read number `k - 1`. `fuel` bounds the number of iterations (the code loops until it succeeds): `none` = not finished yet. -/
def rpLoop (c : Nat → Nat) : Nat → Nat → Nat → Option (Nat × Nat)
  | 0, _, _ => none
  | fuel + 1, k, hi0 =>
    let low := c k % 2 ^ 32
    let hi1 := c (k + 1) / 2 ^ 32
    if hi0 = hi1 then some (hi0 * 2 ^ 32 + low, k + 1) else rpLoop c fuel (k + 2) hi1

/-- `now`, `rp2040.rs:80-92`: result and number of the last register read. -/
def rpNow (c : Nat → Nat) (fuel : Nat) : Option (Nat × Nat) := rpLoop c fuel 1 (c 0 / 2 ^ 32)

/-! ## SysTick -/

/-- Program counter of one call of `now` (`systick.rs:128-134`) or `on_interrupt` (`systick.rs:148-152`). -/
inductive Spc where
  | idle
  /-- before `has_wrapped()` -/
  | check
  /-- before `fetch_add` -/
  | add
  /-- before the final `load` (only `now`) -/
  | load
deriving DecidableEq, Repr

structure SSt where
  /-- ghost: number of wraps of the SysTick counter so far = true time -/
  wraps : Nat
  /-- COUNTFLAG of SysTick -/
  flag : Bool
  /-- `SYSTICK_CNT` -/
  cnt : Nat
  pc : Nat → Spc
  /-- does call `i` belong to `now` (true) or `on_interrupt` (false) -/
  isNow : Nat → Bool

inductive SAct where
  /-- the hardware counter wraps -/
  | wrap
  | call (i : Nat) (isNow : Bool)
  /-- call `i` proceeds by one access -/
  | step (i : Nat)
deriving DecidableEq, Repr

inductive SEv where
  /-- `now` (call `i`) executed `has_wrapped` -/
  | began (i : Nat) (wraps : Nat)
  /-- `now` (call `i`) returned `v` -/
  | ret (i : Nat) (v : Nat)
deriving DecidableEq, Repr

def supd {α} (f : Nat → α) (i : Nat) (a : α) : Nat → α := fun j => if j = i then a else f j

/-- One access. `has_wrapped` reads and clears COUNTFLAG. A wrap requires that the previous one was seen (the SysTick interrupt or a
clock read executes within one SysTick period): otherwise the hardware loses a tick. -/
def sstep (s : SSt) : SAct → Option (SSt × List SEv)
  | .wrap => if s.flag then none else some ({ s with wraps := s.wraps + 1, flag := true }, [])
  | .call i n => if s.pc i = .idle then some ({ s with pc := supd s.pc i .check, isNow := supd s.isNow i n }, []) else none
  | .step i =>
    match s.pc i with
    | .idle => none
    | .check =>
      let e := if s.isNow i then [SEv.began i s.wraps] else []
      if s.flag then some ({ s with flag := false, pc := supd s.pc i .add }, e)
      else some ({ s with pc := supd s.pc i (if s.isNow i then .load else .idle) }, e)
    | .add => some ({ s with cnt := s.cnt + 1, pc := supd s.pc i (if s.isNow i then .load else .idle) }, [])
    | .load => some ({ s with pc := supd s.pc i .idle }, [.ret i s.cnt])

def sinit : SSt := { wraps := 0, flag := false, cnt := 0, pc := fun _ => .idle, isNow := fun _ => false }

def sexec (s : SSt) : List SAct → Option (SSt × List SEv)
  | [] => some (s, [])
  | a :: as =>
    match sstep s a with
    | none => none
    | some (s1, e1) =>
      match sexec s1 as with
      | none => none
      | some (s2, e2) => some (s2, e1 ++ e2)

/-! ## Priority of the monotonic interrupt -/

/-- `max_async_prio`, `rtic-macros/src/analyze.rs:60-65`: one below the lowest hardware-task priority. -/
def maxAsyncPrio (hw : List Nat) : Option Nat :=
  hw.min?.map (· - 1)

/-- `RTIC_ASYNC_MAX_LOGICAL_PRIO`, `rtic-macros/src/codegen/bindings/cortex.rs:349-363`, from the result of the analysis (`none`: there are no hardware tasks). -/
def asyncMaxLogicalPrio (limit : Option Nat) (bits : Nat) : Nat :=
  limit.getD (2 ^ bits)

/-- `set_monotonic_prio`, `rtic-monotonics/src/lib.rs:146`: `.max(1).min(1 << prio_bits)` (simplification: numbers without overflow, that is for up to 7 priority bits; see C48). -/
def limitedPrio (limit : Option Nat) (bits : Nat) : Nat := min (max (asyncMaxLogicalPrio limit bits) 1) (2 ^ bits)

/-- the priority of the timer interrupt in an application with hardware tasks of these priorities -/
def monotonicPrio (hw : List Nat) (bits : Nat) : Nat := limitedPrio (maxAsyncPrio hw) bits

/-! ## LETIMER -/

/-- The second closure of `now`, `silabs/letimer.rs:128-138`: the hardware counts down from `0xFF_FFFF`; at true time `t` the register is `0xFF_FFFF - t % 2^24`. -/
def letimerValue (t : Nat) : Nat :=
  let cnt := 0xFFFFFF - t % 2 ^ 24
  if cnt = 0 then 0 else 0xFFFFFF - cnt

/-- `now`, `silabs/letimer.rs:123-140`. The second closure returns `u32`, so `calculate_now` works with `BITS = 32`
(`rtic-time/src/half_period_counter.rs:126-129`). The half-period counter is taken as up to date: number of half periods (of the 24-bit timer) elapsed. -/
def letimerNow (t : Nat) : BitVec 64 :=
  HalfPeriod.calculateNow 32 (BitVec.ofNat 64 (t / 2 ^ 23)) (BitVec.ofNat 64 (letimerValue t))

end Verif.Backends
