/-!
# Waker registration

Model of `rtic-common/src/waker_registration.rs`. A waker is an element of a type `W`; `Waker::will_wake` is equality.
Both methods are one critical section, hence one atomic step.
-/

namespace Verif.WakerReg

variable {W : Type} [DecidableEq W]

/-- The two public operations. -/
inductive Op (W : Type) where
  | register (w : W)
  | wake
deriving DecidableEq, Repr

/-- `register`, `waker_registration.rs:24-53`: new content of the cell, and the wakers that are woken. -/
def register (cell : Option W) (new : W) : Option W × List W :=
  match cell with
  | some w2 =>
    if w2 = new then (some w2, [])
    else (some new, [w2])
  | none => (some new, [])

/-- `wake`, `waker_registration.rs:56-64`. -/
def wake (cell : Option W) : Option W × List W :=
  match cell with
  | some w => (none, [w])
  | none => (none, [])

/-- One operation. -/
def step (cell : Option W) : Op W → Option W × List W
  | .register w => register cell w
  | .wake => wake cell

/-- A sequence of operations: final cell and, per operation, the wakers it woke. `new`
(`waker_registration.rs:16-20`) is the cell `none`. -/
def run (cell : Option W) : List (Op W) → Option W × List (List W)
  | [] => (cell, [])
  | op :: ops =>
    let r := step cell op
    let r' := run r.1 ops
    (r'.1, r.2 :: r'.2)

end Verif.WakerReg
