import Verif.WaitQueue.Model

/-!
# Specification of the wait queue

A plain list of link addresses (oldest first) and, for each allocated link, its value and whether it
*has left* the queue (popped or removed). `none` as the result of an operation means that the client broke the documented
contract (`# Safety: The link must live until it is removed from the queue`; a link is pushed at most once).
-/

namespace Verif.WaitQueue

structure Spec (α : Type) where
  /-- addresses in the queue, oldest first -/
  q : List Nat
  /-- allocated links: value, and whether the link has been popped or removed -/
  links : Nat → Option (α × Bool)

variable {α : Type}

def Spec.empty : Spec α := { q := [], links := fun _ => none }

def Spec.set (s : Spec α) (a : Nat) (x : Option (α × Bool)) : Nat → Option (α × Bool) :=
  fun b => if b = a then x else s.links b

def specStep (s : Spec α) : Op α → Option (Spec α × Out α)
  | .newLink a v =>
    if a ∈ s.q then none else some ({ s with links := s.set a (some (v, false)) }, .unit)
  | .push a =>
    match s.links a with
    | some (_, false) => if a ∈ s.q then none else some ({ s with q := s.q ++ [a] }, .unit)
    | _ => none
  | .pop =>
    match s.q with
    | [] => some (s, .popped none)
    | a :: q =>
      match s.links a with
      | some (v, _) => some ({ q := q, links := s.set a (some (v, true)) }, .popped (some v))
      | none => none
  | .remove a =>
    match s.links a with
    | some (v, _) => some ({ q := s.q.erase a, links := s.set a (some (v, true)) }, .unit)
    | none => none
  | .isEmpty => some (s, .bool s.q.isEmpty)
  | .isPopped a =>
    match s.links a with
    | some (_, b) => some (s, .bool b)
    | none => none
  | .free a => if a ∈ s.q then none else some ({ s with links := s.set a none }, .unit)

def specRun (s : Spec α) : List (Op α) → Option (Spec α × List (Out α))
  | [] => some (s, [])
  | op :: ops => do
    let (s1, o) ← specStep s op
    let (s2, os) ← specRun s1 ops
    some (s2, o :: os)

end Verif.WaitQueue
