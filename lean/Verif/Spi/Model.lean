import Verif.Arbiter.Model

/-!
# Arbitrated SPI and I2C devices

Model of `rtic-sync/src/arbiter/spi.rs` and `rtic-sync/src/arbiter/i2c.rs`. The bus and the chip-select pin are arbitrary:
every call on them may succeed or fail, given by an oracle (`bus k` is the result of the `k`-th call of the transaction,
`low`, `high` the results of the two pin operations). The words that are read are not modelled. The methods of
the I2C devices (`i2c.rs:78-105, 140-168`) acquire the bus, forward one call and return its result; they are covered by the
part on several devices below, where a call is arbitrary.
-/

namespace Verif.Spi

/-- `embedded_hal::spi::Operation`; a buffer to be filled is represented by its length. -/
inductive Op (W : Type) where
  | read (len : Nat)
  | write (ws : List W)
  | transfer (len : Nat) (ws : List W)
  | transferInPlace (ws : List W)
  | delayNs (ns : Nat)
deriving DecidableEq, Repr

/-- Calls made on the chip-select pin, the bus, and the delay provider. -/
inductive Call (W : Type) where
  | csLow | csHigh
  | read (len : Nat)
  | write (ws : List W)
  | transfer (len : Nat) (ws : List W)
  | transferInPlace (ws : List W)
  | flush
  | delay (ns : Nat)
deriving DecidableEq, Repr

/-- `embedded_hal_bus::spi::DeviceError`. -/
inductive DevErr (EB EC : Type) where
  | spi (e : EB)
  | cs (e : EC)
deriving DecidableEq, Repr

variable {W EB EC : Type}

/-- One operation, `spi.rs:51-63` (async) and `spi.rs:134-146` (blocking); `k` is the index of its first call. Result: the calls made
and the error, if any. -/
def runOp (bus : Nat → Option EB) (k : Nat) : Op W → List (Call W) × Option EB
  | .read n => ([.read n], bus k)
  | .write ws => ([.write ws], bus k)
  | .transfer n ws => ([.transfer n ws], bus k)
  | .transferInPlace ws => ([.transferInPlace ws], bus k)
  | .delayNs ns =>
    match bus k with
    | some e => ([.flush], some e)
    | none => ([.flush, .delay ns], none)

/-- The loop over the operations, `spi.rs:49-69`, `132-152`. -/
def runOps (bus : Nat → Option EB) (k : Nat) : List (Op W) → List (Call W) × Option EB
  | [] => ([], none)
  | o :: os =>
    let (cs, r) := runOp bus k o
    match r with
    | some e => (cs, some e)
    | none =>
      let (cs', r') := runOps bus (k + cs.length) os
      (cs ++ cs', r')

/-- `SpiDevice::transaction` from the moment the bus access is granted, `spi.rs:47-79` (async) and `130-162` (blocking):
the calls made, and the error returned (`none` is `Ok(())`). -/
def transaction (bus : Nat → Option EB) (low high : Option EC) (ops : List (Op W)) :
    List (Call W) × Option (DevErr EB EC) :=
  match low with
  | some e => ([.csLow], some (.cs e))
  | none =>
    let (cs, opRes) := runOps bus 1 ops
    let flushRes := bus (1 + cs.length)
    (.csLow :: cs ++ [.flush, .csHigh],
      match opRes with
      | some e => some (.spi e)
      | none =>
        match flushRes with
        | some e => some (.spi e)
        | none =>
          match high with
          | some e => some (.cs e)
          | none => none)

/-- Calls at which the future can be suspended, and hence dropped: in the async device every bus call and the delay
(`.await` in `spi.rs:52-59, 72`), in the blocking device only the delay (`spi.rs:142`). -/
def awaits (blocking : Bool) : Call W → Bool
  | .csLow | .csHigh => false
  | .delay _ => true
  | _ => !blocking

/-- The possible call sequences of a transaction whose future is dropped at a suspension point: the calls up to and including one
at which it can be suspended. The bus token is a local variable and is dropped. -/
def Cancelled (blocking : Bool) (full : List (Call W)) (cs : List (Call W)) : Prop :=
  ∃ pre c post, full = pre ++ c :: post ∧ awaits blocking c = true ∧ cs = pre ++ [c]

/-! ## Several devices on one bus -/

/-- A device number, the number of its transaction, and the call. -/
structure Tag where
  dev : Nat
  txn : Nat
deriving DecidableEq, Repr

/-- The arbiter, for each device the number of its current transaction, and the calls made so far (newest first). -/
structure Sys (C : Type) where
  arb : Arbiter.St
  txn : Nat → Nat
  log : List (Tag × C)

/-- Steps: anything the arbiter's clients can do (`access`, polls, cancellation, release of the token: `spi.rs:45`, end of
scope), and calls. A call is made through the token (`bus: ExclusiveAccess` in `spi.rs:45`, `i2c.rs:79`), so the device must hold it;
the chip-select pin of a device is driven only between acquiring and releasing as well. A new transaction begins with each
`access`. -/
inductive SysStep {C : Type} : Sys C → Sys C → Prop where
  | begin (s : Sys C) (i : Nat) (a' : Arbiter.St) (e) (h : Arbiter.step s.arb (.access i) = some (a', e)) :
    SysStep s { s with arb := a', txn := Arbiter.set s.txn i (s.txn i + 1) }
  | tryBegin (s : Sys C) (i : Nat) (a' : Arbiter.St) (e) (h : Arbiter.step s.arb (.tryAccess i) = some (a', e)) :
    SysStep s { s with arb := a', txn := Arbiter.set s.txn i (s.txn i + 1) }
  | arb (s : Sys C) (a : Arbiter.Act) (a' : Arbiter.St) (e) (ha : ∀ i, a ≠ .access i ∧ a ≠ .tryAccess i)
      (h : Arbiter.step s.arb a = some (a', e)) : SysStep s { s with arb := a' }
  | call (s : Sys C) (i : Nat) (c : C) (h : s.arb.pc i = .token) :
    SysStep s { s with log := ({ dev := i, txn := s.txn i }, c) :: s.log }

inductive SysReach {C : Type} : Sys C → Prop where
  | init : SysReach { arb := Arbiter.init, txn := fun _ => 0, log := [] }
  | step {s s' : Sys C} (h : SysReach s) (hs : SysStep s s') : SysReach s'

end Verif.Spi
