import Verif.SourceMask.Model

/-! # Specification vocabulary -/

namespace Verif.SourceMask

/-- What the compiler accepted: the masks are those generated by the macro (no panic in the constants); every interrupt-bound task with a priority is in the list the macro made them from; ceilings bound the priorities of the users
(C40). -/
structure WellFormed (c : Cfg) : Prop where
  masks : genMasks c.irqs = some c.masks
  listed : ∀ t n, c.bind t = some n → 1 ≤ c.prio t → (c.prio t, n) ∈ c.irqs
  ceil : ∀ t r, c.uses t r → c.prio t ≤ c.ceil r

/-- the record is inside the lock closure of resource `r` -/
def InsideLock (r : Nat) : Rec → Prop
  | .lk r' _ => r' = r
  | .cs (some r') _ => r' = r
  | _ => False

/-- the record is an activation of task `t` -/
def ActivationOf (t : Nat) : Rec → Prop
  | .body t' => t' = t
  | _ => False

end Verif.SourceMask
