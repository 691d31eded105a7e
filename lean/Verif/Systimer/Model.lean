/-!
# The clock of the ESP32-C3/C6: reading the SYSTIMER

Model of `TimerBackend::now`, `rtic-monotonics/src/esp32c3.rs:82-93` and `esp32c6.rs:83-94` (same code). The 52-bit counter is not read directly: software requests a snapshot, waits until it
is taken and reads its two halves one after the other. There is one snapshot for everybody, and nothing prevents a preemption between the accesses.

Callers are numbered; any number of calls can be in progress, in any interleaving (nested preemption is a special case). True time is an unbounded number. Simplification: the snapshot is taken
some time after it was requested, and the flag `value_valid` is unset from the request until then (from the reference manual of the chip, not from the code).
-/

namespace Verif.Systimer

/-- Where a call of `now` is; `t0` is the time at which it began (for the specification only). -/
inductive Pc where
  | idle
  /-- polls `value_valid`, `esp32c3.rs:89` -/
  | spin (t0 : Nat)
  /-- about to read the low half, `esp32c3.rs:90` -/
  | lo (t0 : Nat)
  /-- about to read the high half, `esp32c3.rs:91`; `l`: the low half that was read -/
  | hi (t0 l : Nat)
deriving DecidableEq, Repr

structure St where
  /-- true time in ticks -/
  now : Nat
  /-- a snapshot was requested (and `value_valid` is unset) -/
  req : Bool
  /-- the snapshot (52 bits) -/
  latch : Nat
  pc : Nat → Pc

inductive Act where
  | tick
  /-- the hardware takes the snapshot -/
  | sync
  /-- call `i` begins: `unit0_op().write(|w| w.update().set_bit())`, `esp32c3.rs:83-87` -/
  | update (i : Nat)
  /-- call `i` sees `value_valid`, `esp32c3.rs:89` -/
  | valid (i : Nat)
  /-- call `i` reads `unit_value(0).lo()`, `esp32c3.rs:90` -/
  | readLo (i : Nat)
  /-- call `i` reads `unit_value(0).hi()` and returns, `esp32c3.rs:91-92` -/
  | readHi (i : Nat)
deriving DecidableEq, Repr

/-- A call returned. -/
structure Ret where
  caller : Nat
  /-- time at which the call began -/
  t0 : Nat
  value : Nat
deriving DecidableEq, Repr

def set (f : Nat → Pc) (i : Nat) (x : Pc) : Nat → Pc := fun j => if j = i then x else f j

def step (s : St) : Act → Option (St × Option Ret)
  | .tick => some ({ s with now := s.now + 1 }, none)
  | .sync => if s.req then some ({ s with req := false, latch := s.now % 2 ^ 52 }, none) else none
  | .update i => match s.pc i with
    | .idle => some ({ s with req := true, pc := set s.pc i (.spin s.now) }, none)
    | _ => none
  | .valid i => match s.pc i with
    | .spin t0 => if s.req then none else some ({ s with pc := set s.pc i (.lo t0) }, none)
    | _ => none
  | .readLo i => match s.pc i with
    | .lo t0 => some ({ s with pc := set s.pc i (.hi t0 (s.latch % 2 ^ 32)) }, none)
    | _ => none
  | .readHi i => match s.pc i with
    -- `lo as u64 | (hi as u64) << 32`
    | .hi t0 l => some ({ s with pc := set s.pc i .idle }, some ⟨i, t0, l ||| ((s.latch / 2 ^ 32) <<< 32)⟩)
    | _ => none

def init : St := { now := 0, req := false, latch := 0, pc := fun _ => .idle }

/-- An execution, with the last return of a call (if the last action was one). -/
def exec (s : St) : List Act → Option (St × List Ret)
  | [] => some (s, [])
  | a :: as =>
    match step s a with
    | none => none
    | some (s1, e) =>
      match exec s1 as with
      | none => none
      | some (s2, es) => some (s2, e.toList ++ es)

def Reach (s : St) : Prop := ∃ as es, exec init as = some (s, es)

end Verif.Systimer
