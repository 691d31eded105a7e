import Verif.TimerList.Model

/-!
# Specification of the timer list

A set of waiting entries, kept in the order in which they were inserted. `none` as the result of an operation means that
the client broke the contract: a link must not be reused or released while it is in the list, and the release times in the list are less
than half the counter range apart.
-/

namespace Verif.TimerList

structure Spec where
  /-- addresses of the waiting entries, in insertion order -/
  arr : List Nat
  /-- allocated entries -/
  links : Nat → Option Ent

def Spec.empty : Spec := { arr := [], links := fun _ => none }

def set (f : Nat → Option Ent) (a : Nat) (x : Option Ent) : Nat → Option Ent := fun b => if b = a then x else f b

/-- Release time of the entry at `a`. -/
def timeOf (links : Nat → Option Ent) (a : Nat) : Nat :=
  match links a with
  | some e => e.time
  | none => 0

/-- The element with the least `t`; among several, the first. -/
def earliest (t : Nat → Nat) : List Nat → Option Nat
  | [] => none
  | a :: l =>
    match earliest t l with
    | some b => if t b < t a then some b else some a
    | none => some a

def specStep (w : Nat) (s : Spec) : Op → Option (Spec × Out)
  | .insert a wk t =>
    if a ∈ s.arr then none
    else if ∀ b ∈ s.arr, t < timeOf s.links b + 2 ^ (w - 1) ∧ timeOf s.links b < t + 2 ^ (w - 1) then
      let links := set s.links a (some { waker := wk, time := t, popped := false })
      let arr := s.arr ++ [a]
      some ({ arr, links }, .headUpdated (decide (earliest (timeOf links) arr = some a)))
    else none
  | .delete a => some ({ s with arr := s.arr.filter (· ≠ a) }, .unit)
  | .popIf f =>
    match earliest (timeOf s.links) s.arr with
    | none => some (s, .popped none)
    | some a =>
      match s.links a with
      | none => none
      | some e =>
        if f e then some ({ arr := s.arr.filter (· ≠ a), links := set s.links a (some { e with popped := true }) }, .popped (some { e with popped := true }))
        else some ({ s with links := set s.links a (some { e with popped := false }) }, .popped none)
  | .wasPopped a =>
    match s.links a with
    | some e => some (s, .bool e.popped)
    | none => none
  | .free a => if a ∈ s.arr then none else some ({ s with links := set s.links a none }, .unit)

def specRun (w : Nat) (s : Spec) : List Op → Option (Spec × List Out)
  | [] => some (s, [])
  | op :: ops => do
    let (s1, o) ← specStep w s op
    let (s2, os) ← specRun w s1 ops
    some (s2, o :: os)

end Verif.TimerList
