import Verif.Intrusive.Own
import Verif.Arbiter.Props

/-!
# The arbiter on the real, intrusive wait queue

The same code as `Verif.Arbiter.Model`, with the memory it works on: the wait queue is the doubly linked list of `rtic-common/src/wait_queue.rs` (model `Verif.WaitQueue.WQ`), the variable `link_ptr` of an `access()` (`arbiter.rs:76`) lives in
the memory of its future, whose address is chosen freely when the future is created, as long as no other live future is there. The memory is dead, and can be reused, as soon as the `dropper` (`arbiter.rs:83-90`) has run. An access to memory
that holds no live link sets `bad`.
-/

namespace Verif.Intrusive.Arb

open Verif.WaitQueue Verif.Arbiter

/-- content of a `Link<Waker>`: the waker; and, for the events only, who waits -/
structure WData where
  w : Nat
  who : Nat
deriving DecidableEq, Repr

structure PSt where
  taken : Bool
  q : WQ WData
  /-- address of the `link_ptr` variable of the `access()` future of client `i` -/
  fut : Nat → Option Nat
  /-- memory in use by a live future -/
  used : Nat → Bool
  pc : Nat → Pc
  bad : Bool

/-- `Arbiter::new`, `arbiter.rs:65-71`. -/
def init : PSt := { taken := false, q := WaitQueue.empty, fut := fun _ => none, used := fun _ => false, pc := fun _ => .none, bad := false }

/-- The `dropper`, `arbiter.rs:83-90`, of client `i`, whose variables are dead afterwards. -/
def dropper (s : PSt) (i : Nat) : PSt :=
  match s.fut i with
  | none => { s with bad := true }
  | some a =>
    match s.q.mem a with
    | none => { s with fut := fset s.fut i none, used := fset s.used a false }
    | some _ =>
      match s.q.remove a with
      | some q => { s with q := q.free a, fut := fset s.fut i none, used := fset s.used a false }
      | none => { s with bad := true }

/-- One step. `x` is the address of the future that `access` creates. -/
def step (s : PSt) (a : Act) (x : Nat) : Option (PSt × List Ev) :=
  match a with
  -- `arbiter.rs:75-90`: no live future is at this address
  | .access i =>
    match s.pc i with
    | .none => if s.used x = false then some ({ s with pc := fset s.pc i .fut, fut := fset s.fut i (some x), used := fset s.used x true }, []) else none
    | _ => none
  -- `arbiter.rs:92-125`
  | .poll i w =>
    match s.pc i with
    | .fut =>
      if s.q.isEmpty = true ∧ s.taken = false then some ({ s with taken := true, pc := fset s.pc i .got }, [.acquired i])
      else
        match s.fut i with
        | none => some ({ s with bad := true }, [])
        | some a =>
          match s.q.mem a with
          | some l =>
            if l.isPopped then some ({ s with pc := fset s.pc i .got }, [.acquired i])
            else some (s, [])
          | none =>
            match (s.q.newLink a { w := w, who := i }).push a with
            | some q => some ({ s with q := q }, [.waiting i])
            | none => some ({ s with bad := true }, [])
    | _ => none
  -- `arbiter.rs:129-135`
  | .fin i =>
    match s.pc i with
    | .got => some ({ dropper s i with pc := fset s.pc i .token }, [])
    | _ => none
  -- drop of the future: `arbiter.rs:83-90`
  | .cancel i =>
    match s.pc i with
    | .fut => some ({ dropper s i with pc := fset s.pc i .none }, [.cancelled i])
    | _ => none
  -- `arbiter.rs:140-157`
  | .tryAccess i =>
    match s.pc i with
    | .none =>
      if s.q.isEmpty = true ∧ s.taken = false then some ({ s with taken := true, pc := fset s.pc i .token }, [.acquired i])
      else some (s, [.tryFailed i])
    | _ => none
  -- `arbiter.rs:167-179`
  | .dropTok i =>
    match s.pc i with
    | .token =>
      if s.q.isEmpty = true then some ({ s with taken := false, pc := fset s.pc i .none }, [.released i])
      else
        match s.q.pop with
        | some (q, some d) => some ({ s with q := q, pc := fset s.pc i .none }, [.released i, .handed d.who d.w])
        | some (q, none) => some ({ s with q := q, pc := fset s.pc i .none }, [.released i])
        | none => some ({ s with bad := true }, [])
    | _ => none

/-- An execution: actions, each with the address for the future it may create. -/
def exec (s : PSt) : List (Act × Nat) → Option (PSt × List Ev)
  | [] => some (s, [])
  | a :: as =>
    match step s a.1 a.2 with
    | none => none
    | some (s1, e) =>
      match exec s1 as with
      | none => none
      | some (s2, es) => some (s2, e ++ es)

def Reach (s : PSt) (tr : List Ev) : Prop := ∃ as, exec init as = some (s, tr)

end Verif.Intrusive.Arb
