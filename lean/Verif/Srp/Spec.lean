import Verif.Srp.Model

/-! # Specification vocabulary for locking -/

namespace Verif.Srp

/-- What the analysis guarantees for an accepted application (C40, compile-time priority check of `codegen/bindings/cortex.rs:216-219`): the ceiling of a resource is the largest priority of its users, no priority
exceeds what the hardware has, hardware has at most 7 priority bits. -/
structure WellFormed (c : Cfg) : Prop where
  bits : c.bits ≤ 7
  prio : ∀ t, c.prio t ≤ 2 ^ c.bits
  ceil : ∀ t r, c.uses t r → c.prio t ≤ c.ceil r
  ceilMax : ∀ r, c.ceil r ≤ 2 ^ c.bits

/-- `ob` is a stack record of a task that is inside the lock closure of resource `r` -/
def InsideLock (r : Nat) : Rec → Prop
  | .lk r' _ => r' = r
  | .cs (some r') _ => r' = r
  | _ => False

/-- `x` is the record of an activation of task `t` -/
def ActivationOf (t : Nat) : Rec → Prop
  | .enter t' | .body t' _ | .leave t' => t' = t
  | _ => False

end Verif.Srp
