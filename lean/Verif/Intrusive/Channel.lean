import Verif.Intrusive.Own
import Verif.Channel.Props3

/-!
# The channel on the real, intrusive wait queue

The same code as `Verif.Channel.Model`, but with the memory the code works on: the wait queue is the doubly linked list of `rtic-common/src/wait_queue.rs` (model `Verif.WaitQueue.WQ`: head, tail and a heap of links);
the variables `link_ptr` and `free_slot_ptr` of a `send` (`channel.rs:391-392`) live in the memory of its future, whose address is chosen freely when the future is created, as long as no other live future is there; this memory is
dead as soon as the future has run its `dropper` (`channel.rs:402-419`), and may then be used by any other future. An access to memory that holds no live variable sets `bad`.

What is not repeated here: `Verif.Channel.Model` explains the granularity and the program counters.

Simplification: the memory of a future is dead from the end of the `dropper` on, although the future may still exist while `send_footer` runs; the variable `link_ptr` is dead once it was removed from the list by the `dropper`. (Dead memory is
available for reuse, so this asks more of the code.)
-/

namespace Verif.Intrusive.Chan

open Verif.WaitQueue Verif.Channel

/-- `WaitQueueData`, `channel.rs:24`: the waker, the address of the `free_slot_ptr` variable; and, for the events only, who waits. -/
structure WData where
  w : Nat
  slot : Nat
  who : Nat
deriving DecidableEq, Repr

structure PSt (T : Type) where
  free : List Nat
  ready : List Nat
  slots : Nat → Option T
  q : WQ WData
  rcvDropped : Bool
  num : Nat
  rwk : Option Nat
  snd : Nat → Pc T
  /-- address of the variables of the `send` future of sender `i` -/
  fut : Nat → Option Nat
  /-- variables `free_slot_ptr`, by address; `none`: no such variable -/
  cell : Nat → Option (Option Nat)
  rx : Rx T
  bad : Bool

variable {T : Type}

/-- `Channel::new` and `split`, `channel.rs:86-97, 115-140`. -/
def init (n : Nat) : PSt T :=
  { free := List.range n, ready := [], slots := fun _ => none, q := WaitQueue.empty, rcvDropped := false, num := 1, rwk := none, snd := fun i => if i = 0 then .idle else .absent, fut := fun _ => none, cell := fun _ => none, rx := .idle, bad := false }

/-- `return_free_slot`, `channel.rs:155-176`. -/
def returnFreeSlot (n : Nat) (s : PSt T) (x : Nat) : PSt T × List (Ev T) :=
  match s.q.pop with
  | some (q, some d) =>
    -- `freeq_slot.replace(Some(slot), cs)`
    match s.cell d.slot with
    | some _ => ({ s with q := q, cell := fset s.cell d.slot (some (some x)) }, [.wokeS d.who d.w])
    | none => ({ s with bad := true }, [])
  | some (q, none) => ({ s with q := q, free := s.free ++ [x], bad := s.bad || decide (n ≤ s.free.length) }, [])
  | none => ({ s with bad := true }, [])

/-- `rtic-common/src/waker_registration.rs:56-64`. -/
def wakeR (s : PSt T) : PSt T × List (Ev T) :=
  match s.rwk with
  | some w => ({ s with rwk := none }, [.wokeR w])
  | none => (s, [])

/-- `rtic-common/src/waker_registration.rs:24-53`. -/
def register (s : PSt T) (w : Nat) : PSt T × List (Ev T) :=
  match s.rwk with
  | some w2 => if w2 = w then (s, [.reg w]) else ({ s with rwk := some w }, [.wokeR w2, .reg w])
  | none => ({ s with rwk := some w }, [.reg w])

/-- The `poll_fn` of `send`, `channel.rs:421-490`. -/
def pollSend (s : PSt T) (i : Nat) (v : T) (w : Nat) : PSt T :=
  if s.rcvDropped then { s with snd := fset s.snd i (.drop0 v .err) }
  else
    match s.fut i with
    | none => { s with bad := true }
    | some a =>
      match s.q.mem a with
      | some l =>
        if l.isPopped then
          match s.cell a with
          | some (some x) => { s with cell := fset s.cell a (some none), q := s.q.free a, snd := fset s.snd i (.drop0 v (.ok x)) }
          | some none => { s with q := s.q.free a, snd := fset s.snd i (.drop0 v .err) }
          | none => { s with bad := true }
        else s
      | none =>
        if s.q.isEmpty = false ∨ s.free = [] then
          match (s.q.newLink a { w := w, slot := a, who := i }).push a with
          | some q => { s with q := q }
          | none => { s with bad := true }
        else
          match s.free.getLast? with
          | some x => { s with free := s.free.dropLast, snd := fset s.snd i (.drop0 v (.ok x)) }
          | none => { s with bad := true }

/-- The next critical section of the operation sender `i` is executing. -/
def goS (n : Nat) (s : PSt T) (i : Nat) : Option (PSt T × List (Ev T)) :=
  match s.snd i with
  | .absent | .idle | .snd _ => none
  -- `channel.rs:363-365`
  | .try0 v =>
    if s.q.isEmpty = false then some ({ s with snd := fset s.snd i .idle }, [.tryFull i v])
    else some ({ s with snd := fset s.snd i (.try1 v) }, [])
  -- `channel.rs:368-370`
  | .try1 v =>
    if s.rcvDropped then some ({ s with snd := fset s.snd i .idle }, [.tryClosed i v])
    else some ({ s with snd := fset s.snd i (.try2 v) }, [])
  -- `channel.rs:372-381`
  | .try2 v =>
    match s.free with
    | x :: f => some ({ s with free := f, snd := fset s.snd i (.hold v x) }, [])
    | [] => some ({ s with snd := fset s.snd i .idle }, [.tryFull i v])
  -- `channel.rs:406-408`
  | .drop0 v k =>
    match s.fut i with
    | none => some ({ s with bad := true }, [])
    | some a =>
      match s.q.mem a with
      | none => some ({ s with snd := fset s.snd i (.drop1 v k) }, [])
      | some _ =>
        match s.q.remove a with
        | some q => some ({ s with q := q.free a, snd := fset s.snd i (.drop1 v k) }, [])
        | none => some ({ s with bad := true }, [])
  -- `channel.rs:413-418`, then `channel.rs:495-501`; the variables are dead now
  | .drop1 v k =>
    match s.fut i with
    | none => some ({ s with bad := true }, [])
    | some a =>
      let s1 := { s with cell := fset s.cell a none, fut := fset s.fut i none }
      let (s2, evs) := match s.cell a with
        | some (some x) => returnFreeSlot n s1 x
        | some none => (s1, [])
        | none => ({ s1 with bad := true }, [])
      match k with
      | .ok x => some ({ s2 with snd := fset s.snd i (.hold v x) }, evs)
      | .err => some ({ s2 with snd := fset s.snd i .idle }, evs ++ [.sendErr i v])
      | .cancelled => some ({ s2 with snd := fset s.snd i .idle }, evs ++ [.cancelled i v])
  -- `channel.rs:336-340`
  | .hold v x =>
    some ({ s with slots := fset s.slots x (some v), bad := s.bad || (s.slots x).isSome, snd := fset s.snd i (.written v x) }, [])
  -- `channel.rs:343-352`
  | .written v x =>
    some ({ s with ready := s.ready ++ [x], bad := s.bad || decide (n ≤ s.ready.length), snd := fset s.snd i .pushed }, [.enq i v])
  -- `channel.rs:357`
  | .pushed =>
    let (s1, evs) := wakeR s
    some ({ s1 with snd := fset s.snd i .idle }, evs ++ [.sendOk i])
  -- `channel.rs:543-545`
  | .dropW =>
    let (s1, evs) := wakeR s
    some ({ s1 with snd := fset s.snd i .absent }, evs)

/-- The next critical section of the operation the receiver is executing. -/
def goR (n : Nat) (s : PSt T) : Option (PSt T × List (Ev T)) :=
  match s.rx with
  | .idle | .pend _ | .gone => none
  | .poll0 w =>
    let (s1, evs) := register s w
    some ({ s1 with rx := .tr0 (some w) }, evs)
  | .tr0 m =>
    match s.ready with
    | x :: q => some ({ s with ready := q, rx := .got m x }, [])
    | [] => some ({ s with rx := .empty m }, [])
  | .got m x =>
    match s.slots x with
    | some v => some ({ s with slots := fset s.slots x none, rx := .rd m x v }, [])
    | none => some ({ s with bad := true }, [])
  | .rd _ x v =>
    let (s1, evs) := returnFreeSlot n s x
    some ({ s1 with rx := .idle }, evs ++ [.recvd v])
  | .empty m =>
    if s.num = 0 then some ({ s with rx := .idle }, [.recvNoSender])
    else some ({ s with rx := (emptyResult (T := T) m).1 }, (emptyResult m).2)
  | .drop0 => some ({ s with rcvDropped := true, rx := .drop1 }, [])
  | .drop1 =>
    match s.ready.getLast? with
    | some x => some ({ s with ready := s.ready.dropLast, rx := .dgot x }, [])
    | none => some ({ s with rx := .drop2 }, [])
  | .dgot x =>
    match s.slots x with
    | some v => some ({ s with slots := fset s.slots x none, rx := .drop1 }, [.discarded v])
    | none => some ({ s with bad := true }, [])
  -- `channel.rs:688-690`
  | .drop2 =>
    match s.q.pop with
    | some (q, some d) => some ({ s with q := q }, [.wokeS d.who d.w])
    | some (q, none) => some ({ s with q := q, rx := .gone }, [])
    | none => some ({ s with bad := true }, [])

/-- One step. `x` is the address of the future that `startSend` creates. -/
def step (n : Nat) (s : PSt T) (a : Act T) (x : Nat) : Option (PSt T × List (Ev T)) :=
  match a with
  | .clone i j =>
    match s.snd i, s.snd j with
    | .idle, .absent => some ({ s with num := s.num + 1, snd := fset s.snd j .idle }, [])
    | _, _ => none
  | .dropS i =>
    match s.snd i with
    | .idle => some ({ s with bad := s.bad || decide (s.num = 0), num := s.num - 1, snd := fset s.snd i (if s.num - 1 = 0 then .dropW else .absent) }, [])
    | _ => none
  | .startTry i v =>
    match s.snd i with
    | .idle => some ({ s with snd := fset s.snd i (.try0 v) }, [.start i v])
    | _ => none
  -- `channel.rs:390-392`: the variables `free_slot_ptr` and `link_ptr` are initialised with `None`; no live future is at this address
  | .startSend i v =>
    match s.snd i with
    | .idle =>
      if s.cell x = none ∧ s.q.mem x = none then some ({ s with snd := fset s.snd i (.snd v), fut := fset s.fut i (some x), cell := fset s.cell x (some none) }, [.start i v])
      else none
    | _ => none
  | .poll i w =>
    match s.snd i with
    | .snd v => some (pollSend s i v w, [])
    | _ => none
  | .cancel i =>
    match s.snd i with
    | .snd v => some ({ s with snd := fset s.snd i (.drop0 v .cancelled) }, [])
    | _ => none
  | .go i => goS n s i
  | .sQuery i =>
    match s.snd i with
    | .idle => some (s, [.sIsClosed s.rcvDropped, .sIsFull (decide (s.free = [])), .sIsEmpty (decide (s.free.length = n))])
    | _ => none
  | .startTryRecv =>
    match s.rx with
    | .idle => some ({ s with rx := .tr0 none }, [])
    | _ => none
  | .pollRecv w =>
    match s.rx with
    | .idle | .pend _ => some ({ s with rx := .poll0 w }, [])
    | _ => none
  | .cancelRecv =>
    match s.rx with
    | .pend _ => some ({ s with rx := .idle }, [])
    | _ => none
  | .dropR =>
    match s.rx with
    | .idle => some ({ s with rx := .drop0 }, [])
    | _ => none
  | .goR => goR n s
  | .rQuery =>
    match s.rx with
    | .idle => some (s, [.rIsClosed (decide (s.num = 0)), .rIsFull (decide (s.ready.length = n)), .rIsEmpty (decide (s.ready = []))])
    | _ => none

/-- An execution: actions, each with the address for the future it may create. -/
def exec (n : Nat) (s : PSt T) : List (Act T × Nat) → Option (PSt T × List (Ev T))
  | [] => some (s, [])
  | a :: as =>
    match step n s a.1 a.2 with
    | none => none
    | some (s1, e) =>
      match exec n s1 as with
      | none => none
      | some (s2, es) => some (s2, e ++ es)

def Reach (n : Nat) (s : PSt T) (tr : List (Ev T)) : Prop := ∃ as, exec n (init n) as = some (s, tr)

end Verif.Intrusive.Chan
