import Verif.Intrusive.Own
import Verif.WaitUntil.Props

/-!
# `wait_until` on the real, intrusive wait queue

The same code as `Verif.WaitUntil.Model`, with the memory it works on: the queue is the doubly linked list of `rtic-common/src/wait_queue.rs` (model `Verif.WaitQueue.WQ`); the pinned `link_place` of a `wait_until` (`wait_queue.rs:231`) lives in
the memory of its future, whose address is chosen freely when the future is created, as long as no other live future is there. The memory is dead, and can be reused, as soon as the future has completed or has been dropped. An access to memory
that holds no live link sets `bad`.
-/

namespace Verif.Intrusive.Wait

open Verif.WaitQueue Verif.WaitUntil

/-- content of a `Link<Waker>`: the waker; and, for the events only, who waits -/
structure WData where
  w : Nat
  who : Nat
deriving DecidableEq, Repr

structure PSt where
  q : WQ WData
  cond : Bool
  /-- address of the `link_place` variable of the `wait_until` future of waiter `i` -/
  fut : Nat → Option Nat
  /-- memory in use by a live future -/
  used : Nat → Bool
  pc : Nat → Pc
  bad : Bool

/-- Nobody waits. -/
def init : PSt := { q := WaitQueue.empty, cond := false, fut := fun _ => none, used := fun _ => false, pc := fun _ => .none, bad := false }

/-- The closure of `link_guard`, `wait_queue.rs:233-238`. -/
def guard (s : PSt) (i : Nat) : PSt :=
  match s.fut i with
  | none => { s with bad := true }
  | some a =>
    match s.q.mem a with
    | none => s
    | some _ =>
      match s.q.remove a with
      | some q => { s with q := q.free a }
      | none => { s with bad := true }

/-- The `link_guard` is dropped with the future: it runs its closure, and the memory is dead. -/
def finish (s : PSt) (i : Nat) : PSt :=
  match s.fut i with
  | none => { s with bad := true }
  | some a => { guard s i with fut := fset s.fut i none, used := fset s.used a false }

/-- One step. `x` is the address of the future that `start` creates. -/
def step (s : PSt) (a : Act) (x : Nat) : Option (PSt × List Ev) :=
  match a with
  | .start i =>
    if s.pc i = .none ∧ s.used x = false then some ({ s with pc := fset s.pc i .new, fut := fset s.fut i (some x), used := fset s.used x true }, []) else none
  -- `wait_queue.rs:240-244`
  | .poll i w =>
    match s.pc i with
    | .new | .pend _ => some ({ guard s i with pc := fset s.pc i (.cleaned w) }, [])
    | _ => none
  | .go i =>
    match s.pc i with
    -- `wait_queue.rs:246-248`
    | .cleaned w =>
      if s.cond then some ({ finish s i with pc := fset s.pc i .none }, [.ready i])
      else some ({ s with pc := fset s.pc i (.checked w) }, [])
    -- `wait_queue.rs:255-266`
    | .checked w =>
      match s.fut i with
      | none => some ({ s with bad := true }, [])
      | some a =>
        match (s.q.newLink a { w := w, who := i }).push a with
        | some q => some ({ s with q := q, pc := fset s.pc i (.pend w) }, [.pending i w])
        | none => some ({ s with bad := true }, [])
    | _ => none
  -- the future is dropped: `link_guard`, `wait_queue.rs:233-238`
  | .drop i =>
    match s.pc i with
    | .new | .pend _ => some ({ finish s i with pc := fset s.pc i .none }, [])
    | _ => none
  | .setCond b => some ({ s with cond := b }, [.setCond b])
  | .notify =>
    match s.q.pop with
    | some (q, some d) => some ({ s with q := q }, [.woke d.who d.w])
    | some (q, none) => some ({ s with q := q }, [.popNone])
    | none => some ({ s with bad := true }, [])

/-- An execution: actions, each with the address for the future it may create. -/
def exec (s : PSt) : List (Act × Nat) → Option (PSt × List Ev)
  | [] => some (s, [])
  | a :: as =>
    match step s a.1 a.2 with
    | none => none
    | some (s1, e) =>
      match exec s1 as with
      | none => none
      | some (s2, es) => some (s2, e ++ es)

def Reach (s : PSt) (tr : List Ev) : Prop := ∃ as, exec init as = some (s, tr)

end Verif.Intrusive.Wait
