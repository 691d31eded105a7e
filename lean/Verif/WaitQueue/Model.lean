/-!
# The intrusive wait queue

Model of `rtic-common/src/wait_queue.rs`: a doubly linked list whose nodes live in the futures that wait.
Memory is an explicit partial heap (`addr ↦ Link`); dereferencing an address that is not allocated is a *fault*
(`none`). Every method of the code is one critical section, hence one atomic step.
-/

namespace Verif.WaitQueue

/-- `struct Link<T>`, `wait_queue.rs:119-125`; a null pointer is `none`. -/
structure Link (α : Type) where
  val : α
  next : Option Nat
  prev : Option Nat
  isPopped : Bool
deriving DecidableEq, Repr

/-- `struct DoublyLinkedList<T>` (`wait_queue.rs:22-25`) together with the memory that holds the links. -/
structure WQ (α : Type) where
  head : Option Nat
  tail : Option Nat
  mem : Nat → Option (Link α)

variable {α : Type}

/-- `DoublyLinkedList::new`, `wait_queue.rs:29-34`. No link is allocated. -/
def empty : WQ α := { head := none, tail := none, mem := fun _ => none }

def upd (mem : Nat → Option (Link α)) (a : Nat) (l : Option (Link α)) : Nat → Option (Link α) :=
  fun b => if b = a then l else mem b

/-- A store to field `next` of the link at `a`; faults if `a` is not allocated. -/
def WQ.setNext (s : WQ α) (a : Nat) (v : Option Nat) : Option (WQ α) :=
  match s.mem a with
  | none => none
  | some l => some { s with mem := upd s.mem a (some { l with next := v }) }

/-- A store to field `prev` of the link at `a`; faults if `a` is not allocated. -/
def WQ.setPrev (s : WQ α) (a : Nat) (v : Option Nat) : Option (WQ α) :=
  match s.mem a with
  | none => none
  | some l => some { s with mem := upd s.mem a (some { l with prev := v }) }

/-- A store of `true` to field `is_popped` of the link at `a`; faults if `a` is not allocated. -/
def WQ.setPopped (s : WQ α) (a : Nat) : Option (WQ α) :=
  match s.mem a with
  | none => none
  | some l => some { s with mem := upd s.mem a (some { l with isPopped := true }) }

/-- `Link::new`, `wait_queue.rs:131-139`, placed at address `a` of a future. -/
def WQ.newLink (s : WQ α) (a : Nat) (v : α) : WQ α :=
  { s with mem := upd s.mem a (some { val := v, next := none, prev := none, isPopped := false }) }

/-- The memory of the link at `a` is released (its future is gone). -/
def WQ.free (s : WQ α) (a : Nat) : WQ α := { s with mem := upd s.mem a none }

/-- `DoublyLinkedList::pop`, `wait_queue.rs:47-81`. -/
def WQ.pop (s : WQ α) : Option (WQ α × Option α) :=
  match s.head with
  | none => some (s, none)
  | some h =>
    match s.mem h with
    | none => none
    | some hl => do
      -- Move head to the next element
      let s1 := { s with head := hl.next }
      -- `if head == tail`: the queue is empty
      let s2 := if s1.tail = some h then { s1 with tail := none } else s1
      -- `if let Some(next_ref) = head_ref.next`
      let s3 ← match hl.next with
        | none => some s2
        | some n => s2.setPrev n none
      let s4 ← s3.setNext h none
      let s5 ← s4.setPrev h none
      let s6 ← s5.setPopped h
      some (s6, some hl.val)

/-- `DoublyLinkedList::push`, `wait_queue.rs:89-110`, of the link at address `a`. -/
def WQ.push (s : WQ α) (a : Nat) : Option (WQ α) :=
  match s.tail with
  | some t => do
    -- Queue is not empty
    let s1 ← s.setPrev a (some t)
    let s2 := { s1 with tail := some a }
    s2.setNext t (some a)
  | none =>
    -- Queue is empty (the link is only referenced, not accessed)
    some { s with tail := some a, head := some a }

/-- `DoublyLinkedList::is_empty`, `wait_queue.rs:113-115`. -/
def WQ.isEmpty (s : WQ α) : Bool := s.head.isNone

/-- `Link::is_popped`, `wait_queue.rs:142-144`. -/
def WQ.isPopped (s : WQ α) (a : Nat) : Option Bool := (s.mem a).map (·.isPopped)

/-- `Link::remove_from_list`, `wait_queue.rs:147-188`. -/
def WQ.remove (s : WQ α) (a : Nat) : Option (WQ α) :=
  match s.mem a with
  | none => none
  | some l =>
    if l.isPopped then some s
    else do
      let s1 ← s.setPopped a
      match l.prev, l.next with
      | none, none =>
        -- Not in the list or alone in the list
        if s1.head = some a then some { s1 with head := none, tail := none } else some s1
      | none, some n => do
        -- First in the list
        let s2 ← s1.setPrev n none
        some { s2 with head := some n }
      | some p, none => do
        -- Last in the list
        let s2 ← s1.setNext p none
        some { s2 with tail := some p }
      | some p, some n => do
        -- Somewhere in the list
        let s2 ← s1.setNext p (some n)
        s2.setPrev n (some p)

/-- Operations a client performs, with explicit allocation and release of links. -/
inductive Op (α : Type) where
  | newLink (a : Nat) (v : α)
  | push (a : Nat)
  | pop
  | remove (a : Nat)
  | isEmpty
  | isPopped (a : Nat)
  | free (a : Nat)

/-- Results of operations. -/
inductive Out (α : Type) where
  | unit
  | popped (v : Option α)
  | bool (b : Bool)
deriving DecidableEq, Repr

/-- One operation on the linked representation; `none` is a memory fault. -/
def step (s : WQ α) : Op α → Option (WQ α × Out α)
  | .newLink a v => some (s.newLink a v, .unit)
  | .push a => (s.push a).map (·, .unit)
  | .pop => (s.pop).map fun r => (r.1, .popped r.2)
  | .remove a => (s.remove a).map (·, .unit)
  | .isEmpty => some (s, .bool s.isEmpty)
  | .isPopped a => (s.isPopped a).map fun b => (s, .bool b)
  | .free a => some (s.free a, .unit)

/-- A sequence of operations, collecting the results. -/
def run (s : WQ α) : List (Op α) → Option (WQ α × List (Out α))
  | [] => some (s, [])
  | op :: ops => do
    let (s1, o) ← step s op
    let (s2, os) ← run s1 ops
    some (s2, o :: os)

end Verif.WaitQueue
