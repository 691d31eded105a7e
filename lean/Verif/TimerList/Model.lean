import Verif.Ticks.Model

/-!
# The sorted intrusive list of the timer queue

Model of `rtic-time/src/linked_list.rs` at the element type `WaitingWaker` of `rtic-time/src/timer_queue.rs:17-43`. The nodes live in the
`Delay` futures. Memory is an explicit partial heap; dereferencing an address that is not allocated is a *fault* (`none`); a loop that does not end
is also `none` (`partial_fixpoint`). Every method of the code is one critical section, hence one atomic step.
-/

namespace Verif.TimerList

/-- `struct WaitingWaker`, `timer_queue.rs:17-21`. `time` is the true (unbounded) time whose tick value `release_at` holds: the code only sees
`tick w time`, see `Ent.lt`. -/
structure Ent where
  waker : Nat
  time : Nat
  popped : Bool
deriving DecidableEq, Repr

/-- `<` on `WaitingWaker`, i.e. `partial_cmp` is `Less`, `timer_queue.rs:39-43`. -/
def Ent.lt (w : Nat) (a b : Ent) : Bool := Ticks.compare (BitVec.ofNat w a.time) (BitVec.ofNat w b.time) == .lt

/-- `struct Link<T>`, `linked_list.rs:169-173`; a null pointer is `none`. -/
structure Node where
  val : Ent
  next : Option Nat
deriving DecidableEq, Repr

/-- `struct LinkedList<T>` (`linked_list.rs:10-12`) with the memory that holds the links. -/
structure TL where
  head : Option Nat
  mem : Nat → Option Node

/-- `LinkedList::new`, `linked_list.rs:16-20`. -/
def empty : TL := { head := none, mem := fun _ => none }

def upd (mem : Nat → Option Node) (a : Nat) (l : Option Node) : Nat → Option Node := fun b => if b = a then l else mem b

/-- A store to field `next` of the link at `a`; faults if `a` is not allocated. -/
def TL.setNext (s : TL) (a : Nat) (v : Option Nat) : Option TL :=
  match s.mem a with
  | none => none
  | some l => some { s with mem := upd s.mem a (some { l with next := v }) }

/-- `Link::new`, `linked_list.rs:177-183`, with `was_popped = false`, `timer_queue.rs:229-233`. -/
def TL.newLink (s : TL) (a : Nat) (wk t : Nat) : TL :=
  { s with mem := upd s.mem a (some { val := { waker := wk, time := t, popped := false }, next := none }) }

/-- `LinkedList::pop_if`, `linked_list.rs:25-47`, with the closure of the interrupt handler (`timer_queue.rs:106-113`): it stores its result `f val` in
the flag `was_popped` of the head. -/
def TL.popIf (s : TL) (f : Ent → Bool) : Option (TL × Option Ent) :=
  match s.head with
  | none => some (s, none)
  | some h =>
    match s.mem h with
    | none => none
    | some nd =>
      let v := { nd.val with popped := f nd.val }
      let s1 := { s with mem := upd s.mem h (some { nd with val := v }) }
      if f nd.val then some ({ s1 with head := nd.next }, some v) else some (s1, none)

/-- The search loop of `delete`, `linked_list.rs:73-91`. -/
def TL.deleteLoop (s : TL) (addr curr : Nat) (next : Option Nat) : Option TL :=
  match next with
  | none => some s
  | some n =>
    match s.mem n with
    | none => none
    | some nl => if n = addr then s.setNext curr nl.next else TL.deleteLoop s addr n nl.next
partial_fixpoint

/-- `LinkedList::delete`, `linked_list.rs:50-93`. -/
def TL.delete (s : TL) (addr : Nat) : Option TL :=
  match s.head with
  | none => some s
  | some h =>
    match s.mem h with
    | none => none
    | some hl => if h = addr then some { s with head := hl.next } else s.deleteLoop addr h hl.next

/-- The search loop of `insert`, `linked_list.rs:135-163`; `v` is the value of the link at `a`. -/
def TL.insertLoop (w : Nat) (s : TL) (a : Nat) (v : Ent) (curr : Nat) (next : Option Nat) : Option TL :=
  match next with
  | none => s.setNext curr (some a)
  | some n =>
    match s.mem n with
    | none => none
    | some nl =>
      if v.lt w nl.val then do
        let s1 ← s.setNext a (some n)
        s1.setNext curr (some a)
      else TL.insertLoop w s a v n nl.next
partial_fixpoint

/-- `LinkedList::insert`, `linked_list.rs:100-165`, of the link at address `a`; the result is `updated head`. -/
def TL.insert (w : Nat) (s : TL) (a : Nat) : Option (TL × Bool) :=
  match s.mem a with
  | none => none
  | some l =>
    match s.head with
    | none => some ({ s with head := some a }, true)
    | some h =>
      match s.mem h with
      | none => none
      | some hl =>
        if l.val.lt w hl.val then do
          let s1 ← s.setNext a (some h)
          some ({ s1 with head := some a }, true)
        else do
          let s1 ← s.insertLoop w a l.val h hl.next
          some (s1, false)

/-- Operations of the timer queue and of the `Delay` futures on the list. -/
inductive Op where
  /-- `Delay::poll` creates its link at `a` and inserts it, `timer_queue.rs:229-241` -/
  | insert (a : Nat) (wk t : Nat)
  /-- `Delay::drop` deletes its link, `timer_queue.rs:262` -/
  | delete (a : Nat)
  /-- the interrupt handler, `timer_queue.rs:106-113` -/
  | popIf (f : Ent → Bool)
  /-- `Delay::drop` reads `was_popped`, `timer_queue.rs:259` -/
  | wasPopped (a : Nat)
  /-- the memory of the link at `a` is released (its future is gone) -/
  | free (a : Nat)

/-- Results of operations. -/
inductive Out where
  | unit
  | headUpdated (b : Bool)
  | popped (v : Option Ent)
  | bool (b : Bool)
deriving DecidableEq, Repr

/-- One operation on the linked representation; `none` is a memory fault or an endless loop. -/
def step (w : Nat) (s : TL) : Op → Option (TL × Out)
  | .insert a wk t => ((s.newLink a wk t).insert w a).map fun r => (r.1, .headUpdated r.2)
  | .delete a => (s.delete a).map (·, .unit)
  | .popIf f => (s.popIf f).map fun r => (r.1, .popped r.2)
  | .wasPopped a => (s.mem a).map fun nd => (s, .bool nd.val.popped)
  | .free a => some ({ s with mem := upd s.mem a none }, .unit)

/-- A sequence of operations, collecting the results. -/
def run (w : Nat) (s : TL) : List Op → Option (TL × List Out)
  | [] => some (s, [])
  | op :: ops => do
    let (s1, o) ← step w s op
    let (s2, os) ← run w s1 ops
    some (s2, o :: os)

end Verif.TimerList
