/-!
# `wait_until`

Model of `DoublyLinkedList::<Waker>::wait_until`, `rtic-common/src/wait_queue.rs:228-271`, by any number of tasks on one
queue, and of a notifier that makes the condition true and then calls `pop` (`wait_queue.rs:47-81`) and wakes. The queue is used through the
list interface proved in `Verif.WaitQueue`. The closure `f` is modelled as a test of one shared condition (as in the
only use in the repo, `examples/lm3s6965/examples/wait-queue.rs:57`); `remove_from_list`, the call of `f` and `push` are
three separate atomic steps, as in the code (only `remove_from_list` and `push` are critical sections of their own).
-/

namespace Verif.WaitUntil

/-- Where a `wait_until` future is. -/
inductive Pc where
  /-- no future, or completed, or dropped -/
  | none
  /-- created, not polled yet -/
  | new
  /-- in a poll with waker `w`: old link removed (`wait_queue.rs:244`), `f` not called yet -/
  | cleaned (w : Nat)
  /-- `f` returned `None` (`wait_queue.rs:246`), new link not pushed yet (`wait_queue.rs:266`) -/
  | checked (w : Nat)
  /-- returned `Pending` to a poll with waker `w` -/
  | pend (w : Nat)
deriving DecidableEq, Repr

/-- The queue (waiter and its waker, oldest first), the condition, and the futures. -/
structure St where
  q : List (Nat × Nat)
  cond : Bool
  pc : Nat → Pc

/-- Observable events. -/
inductive Ev where
  /-- poll of waiter `i` with waker `w` returned `Pending` -/
  | pending (i w : Nat)
  /-- `wait_until` of `i` completed -/
  | ready (i : Nat)
  /-- the notifier woke waker `w` of waiter `i` -/
  | woke (i w : Nat)
  /-- the condition was set to `b` -/
  | setCond (b : Bool)
  /-- the notifier found the queue empty -/
  | popNone
deriving DecidableEq, Repr

inductive Act where
  | start (i : Nat)
  /-- poll with waker `w` up to the clean-up of the old link -/
  | poll (i w : Nat)
  /-- the next step of the poll -/
  | go (i : Nat)
  | drop (i : Nat)
  | setCond (b : Bool)
  /-- the notifier pops one element and wakes it -/
  | notify
deriving DecidableEq, Repr

def set (f : Nat → Pc) (i : Nat) (x : Pc) : Nat → Pc := fun j => if j = i then x else f j

/-- Nobody waits. -/
def init : St := { q := [], cond := false, pc := fun _ => .none }

/-- `remove_from_list` of the link of waiter `i`. -/
def unlink (q : List (Nat × Nat)) (i : Nat) : List (Nat × Nat) := q.filter (fun x => x.1 != i)

def step (s : St) : Act → Option (St × List Ev)
  | .start i => if s.pc i = .none then some ({ s with pc := set s.pc i .new }, []) else none
  -- `wait_queue.rs:240-244`
  | .poll i w =>
    match s.pc i with
    | .new | .pend _ => some ({ s with q := unlink s.q i, pc := set s.pc i (.cleaned w) }, [])
    | _ => none
  | .go i =>
    match s.pc i with
    -- `wait_queue.rs:246-248`
    | .cleaned w =>
      if s.cond then some ({ s with pc := set s.pc i .none }, [.ready i])
      else some ({ s with pc := set s.pc i (.checked w) }, [])
    -- `wait_queue.rs:255-266`
    | .checked w => some ({ s with q := s.q ++ [(i, w)], pc := set s.pc i (.pend w) }, [.pending i w])
    | _ => none
  -- the future is dropped: `link_guard`, `wait_queue.rs:233-238`
  | .drop i =>
    match s.pc i with
    | .new | .pend _ => some ({ s with q := unlink s.q i, pc := set s.pc i .none }, [])
    | _ => none
  | .setCond b => some ({ s with cond := b }, [.setCond b])
  | .notify =>
    match s.q with
    | [] => some (s, [.popNone])
    | (i, w) :: q => some ({ s with q := q }, [.woke i w])

def exec (s : St) : List Act → Option (St × List Ev)
  | [] => some (s, [])
  | a :: as =>
    match step s a with
    | none => none
    | some (s1, e) =>
      match exec s1 as with
      | none => none
      | some (s2, es) => some (s2, e ++ es)

def Reach (s : St) (tr : List Ev) : Prop := ∃ as, exec init as = some (s, tr)

end Verif.WaitUntil
