/-!
# The MPSC channel as a small-step machine

Model of `rtic-sync/src/channel.rs`. One action of the machine is one critical section of the source (or one piece of code
between critical sections that touches only memory owned by the executing operation, such as the copy of the value into its
slot). Actions of any number of senders and of the receiver interleave arbitrarily.

* A `Sender` is identified by a number; because `send` and `try_send` take `&mut self`, a sender executes at most one
  operation at a time, so the program counter of the operation (`Pc`) is stored per sender. Likewise for the receiver (`Rx`).
* The wait queue is used through the interface proved in `Verif.WaitQueue` (C12, C13): a list of waiting senders, `pop` takes
  the oldest and marks its link as popped, `remove_from_list` erases and marks.
* A storage slot is `none` while it holds no value (`MaybeUninit` uninitialised or moved out by `ptr::read`). The flag
  `bad` records undefined behaviour or a failed `debug_assert!`: reading a slot without a value, overwriting
  a slot that still holds a value, `push_back_unchecked` on a full deque, `pop_back_unchecked` on an empty one,
  underflow of the sender count, a popped link that does not exist.
* Slot indices are natural numbers (the code uses `u8`; `size_check`, `channel.rs:78-82`, guarantees `N < 256`).
* A waker is a number; `will_wake` is equality of numbers.
-/

namespace Verif.Channel

/-- How the body of `send` continues after its `poll_fn`: `Ok(idx)`, `Err(())`, or the future was dropped
(`channel.rs:421-501`). -/
inductive Fin where
  | ok (x : Nat)
  | err
  | cancelled
deriving DecidableEq, Repr

/-- Program counter of a sender. -/
inductive Pc (T : Type) where
  /-- not created yet, or dropped -/
  | absent
  /-- exists, no operation running -/
  | idle
  /-- `try_send` before the wait queue check, `channel.rs:363` -/
  | try0 (v : T)
  /-- `try_send` before the `is_closed` check, `channel.rs:368` -/
  | try1 (v : T)
  /-- `try_send` before `freeq.pop_front`, `channel.rs:372` -/
  | try2 (v : T)
  /-- a `send` future between two polls, `channel.rs:390-490` -/
  | snd (v : T)
  /-- `send`: the `dropper` before `remove_from_list`, `channel.rs:406` -/
  | drop0 (v : T) (k : Fin)
  /-- `send`: the `dropper` before returning an unused slot, `channel.rs:413` -/
  | drop1 (v : T) (k : Fin)
  /-- `send_footer` before the value is copied, `channel.rs:336` -/
  | hold (v : T) (x : Nat)
  /-- `send_footer` before the index is pushed to `readyq`, `channel.rs:343` -/
  | written (v : T) (x : Nat)
  /-- `send_footer` before waking the receiver, `channel.rs:357` -/
  | pushed
  /-- `Sender::drop` of the last sender before waking the receiver, `channel.rs:543` -/
  | dropW
deriving DecidableEq, Repr

/-- Program counter of the receiver. The argument `m` is `some w` inside a poll of `recv` with waker `w`, `none` inside
a plain `try_recv`. -/
inductive Rx (T : Type) where
  /-- no operation running -/
  | idle
  /-- `recv` polled, before registering the waker, `channel.rs:624` -/
  | poll0 (w : Nat)
  /-- `try_recv` before `readyq.pop_front`, `channel.rs:593` -/
  | tr0 (m : Option Nat)
  /-- `try_recv` before `read_slot`, `channel.rs:602` -/
  | got (m : Option Nat) (x : Nat)
  /-- `try_recv` before `return_free_slot`, `channel.rs:607` -/
  | rd (m : Option Nat) (x : Nat) (v : T)
  /-- `try_recv` found nothing, before `is_closed`, `channel.rs:610` -/
  | empty (m : Option Nat)
  /-- a `recv` future that returned `Pending` -/
  | pend (w : Nat)
  /-- `Receiver::drop` before setting `receiver_dropped`, `channel.rs:670` -/
  | drop0
  /-- `Receiver::drop` draining `readyq`, before `pop_back`, `channel.rs:682` -/
  | drop1
  /-- `Receiver::drop` draining, before reading and dropping a value, `channel.rs:685` -/
  | dgot (x : Nat)
  /-- `Receiver::drop` waking the waiters, `channel.rs:688` -/
  | drop2
  /-- the receiver is gone -/
  | gone
deriving DecidableEq, Repr

/-- A link of the wait queue (waker and popped flag; the position is in `St.wq`). -/
structure Lk where
  w : Nat
  popped : Bool
deriving DecidableEq, Repr

/-- `struct Channel`, `channel.rs:32-47`, plus the futures' local variables and program counters. -/
structure St (T : Type) where
  /-- `freeq`, front first -/
  free : List Nat
  /-- `readyq`, front first -/
  ready : List Nat
  /-- `slots` -/
  slots : Nat → Option T
  /-- `wait_queue`: waiting senders, oldest first -/
  wq : List Nat
  /-- `receiver_dropped` -/
  rcvDropped : Bool
  /-- `num_senders` -/
  num : Nat
  /-- `receiver_waker` -/
  rwk : Option Nat
  /-- per sender: program counter -/
  snd : Nat → Pc T
  /-- per sender: local `link_ptr` of `send`, `channel.rs:392` -/
  lk : Nat → Option Lk
  /-- per sender: local `free_slot_ptr` of `send`, `channel.rs:391` -/
  sl : Nat → Option Nat
  rx : Rx T
  bad : Bool

/-- Observable events. -/
inductive Ev (T : Type) where
  /-- sender `i` calls `try_send(v)` / `send(v)` -/
  | start (i : Nat) (v : T)
  /-- the value of sender `i` becomes visible to the receiver (the effect of the send) -/
  | enq (i : Nat) (v : T)
  | sendOk (i : Nat)
  /-- `send` returns `Err(NoReceiver(v))` -/
  | sendErr (i : Nat) (v : T)
  /-- `try_send` returns `Err(Full(v))` -/
  | tryFull (i : Nat) (v : T)
  /-- `try_send` returns `Err(NoReceiver(v))` -/
  | tryClosed (i : Nat) (v : T)
  /-- the `send` future has been dropped before completion -/
  | cancelled (i : Nat) (v : T)
  /-- waker `w` of waiting sender `i` is woken -/
  | wokeS (i w : Nat)
  /-- waker `w` registered by the receiver is woken -/
  | wokeR (w : Nat)
  /-- the receiver registers waker `w` -/
  | reg (w : Nat)
  /-- `try_recv`/`recv` returns `Ok(v)` -/
  | recvd (v : T)
  | recvEmpty
  | recvNoSender
  | recvPending
  /-- a queued value is dropped by `Receiver::drop` -/
  | discarded (v : T)
  | sIsFull (b : Bool) | sIsEmpty (b : Bool) | sIsClosed (b : Bool)
  | rIsFull (b : Bool) | rIsEmpty (b : Bool) | rIsClosed (b : Bool)
deriving DecidableEq, Repr

/-- Actions the scheduler can choose. -/
inductive Act (T : Type) where
  | clone (i j : Nat) | dropS (i : Nat)
  | startTry (i : Nat) (v : T) | startSend (i : Nat) (v : T)
  /-- poll the `send` future of `i` with waker `w` -/
  | poll (i w : Nat)
  /-- drop the `send` future of `i` -/
  | cancel (i : Nat)
  /-- the next critical section of the operation of sender `i` -/
  | go (i : Nat)
  | sQuery (i : Nat)
  | startTryRecv | pollRecv (w : Nat)
  /-- drop the pending `recv` future -/
  | cancelRecv
  | dropR
  /-- the next critical section of the operation of the receiver -/
  | goR
  | rQuery
deriving DecidableEq, Repr

variable {T : Type}

/-- Update of a per-sender (or per-slot) map. -/
def set {β : Type} (f : Nat → β) (i : Nat) (x : β) : Nat → β := fun j => if j = i then x else f j

/-- `Channel::new` followed by `split`, `channel.rs:86-97, 115-140`: all slots free, one sender (number 0), the receiver. -/
def init (n : Nat) : St T where
  free := List.range n
  ready := []
  slots := fun _ => none
  wq := []
  rcvDropped := false
  num := 1
  rwk := none
  snd := fun i => if i = 0 then .idle else .absent
  lk := fun _ => none
  sl := fun _ => none
  rx := .idle
  bad := false

/-- `split` on an existing channel, `channel.rs:115-140`: `readyq` must be empty (`debug_assert!`), `freeq` is cleared and
refilled, `num_senders` becomes 1; nothing else is touched. The new sender has number `i`. -/
def split (n : Nat) (s : St T) (i : Nat) : St T :=
  { s with
    bad := s.bad || !s.ready.isEmpty
    free := List.range n
    num := 1
    snd := set s.snd i .idle
    rx := .idle }

/-- `return_free_slot`, `channel.rs:155-176`. -/
def returnFreeSlot (n : Nat) (s : St T) (x : Nat) : St T × List (Ev T) :=
  match s.wq with
  | j :: q =>
    match s.lk j with
    | some l =>
      ({ s with wq := q, lk := set s.lk j (some { l with popped := true }), sl := set s.sl j (some x) }, [.wokeS j l.w])
    | none => ({ s with bad := true }, [])
  | [] => ({ s with free := s.free ++ [x], bad := s.bad || decide (n ≤ s.free.length) }, [])

/-- `receiver_waker.wake()`, `rtic-common/src/waker_registration.rs:56-64`. -/
def wakeR (s : St T) : St T × List (Ev T) :=
  match s.rwk with
  | some w => ({ s with rwk := none }, [.wokeR w])
  | none => (s, [])

/-- `receiver_waker.register(w)`, `rtic-common/src/waker_registration.rs:24-53`. -/
def register (s : St T) (w : Nat) : St T × List (Ev T) :=
  match s.rwk with
  | some w2 => if w2 = w then (s, [.reg w]) else ({ s with rwk := some w }, [.wokeR w2, .reg w])
  | none => ({ s with rwk := some w }, [.reg w])

/-- One poll of the `poll_fn` in `send`, `channel.rs:421-490`, by sender `i` with value `v` and waker `w`. The resulting
`Poll::Ready(r)` continues with `drop(dropper)`, `channel.rs:493`. -/
def pollSend (s : St T) (i : Nat) (v : T) (w : Nat) : St T :=
  if s.rcvDropped then { s with snd := set s.snd i (.drop0 v .err) }
  else
    match s.lk i with
    | some l =>
      if l.popped then
        match s.sl i with
        | some x =>
          { s with sl := set s.sl i none, lk := set s.lk i none, snd := set s.snd i (.drop0 v (.ok x)) }
        | none =>
          { s with lk := set s.lk i none, snd := set s.snd i (.drop0 v .err) }
      else s
    | none =>
      if s.wq ≠ [] ∨ s.free = [] then
        { s with wq := s.wq ++ [i], lk := set s.lk i (some { w := w, popped := false }) }
      else
        match s.free.getLast? with
        | some x => { s with free := s.free.dropLast, snd := set s.snd i (.drop0 v (.ok x)) }
        | none => { s with bad := true }

/-- The next critical section of the operation sender `i` is executing. -/
def goS (n : Nat) (s : St T) (i : Nat) : Option (St T × List (Ev T)) :=
  match s.snd i with
  | .absent | .idle | .snd _ => none
  -- `channel.rs:363-365`
  | .try0 v =>
    if s.wq ≠ [] then some ({ s with snd := set s.snd i .idle }, [.tryFull i v])
    else some ({ s with snd := set s.snd i (.try1 v) }, [])
  -- `channel.rs:368-370`
  | .try1 v =>
    if s.rcvDropped then some ({ s with snd := set s.snd i .idle }, [.tryClosed i v])
    else some ({ s with snd := set s.snd i (.try2 v) }, [])
  -- `channel.rs:372-381`
  | .try2 v =>
    match s.free with
    | x :: f => some ({ s with free := f, snd := set s.snd i (.hold v x) }, [])
    | [] => some ({ s with snd := set s.snd i .idle }, [.tryFull i v])
  -- `channel.rs:406-408`: `remove_from_list` if there is a link; the link is not used afterwards
  | .drop0 v k =>
    some ({ s with wq := s.wq.erase i, lk := set s.lk i none, snd := set s.snd i (.drop1 v k) }, [])
  -- `channel.rs:413-418`, then `channel.rs:495-501`
  | .drop1 v k =>
    let s1 := { s with sl := set s.sl i none }
    let (s2, evs) := match s.sl i with
      | some x => returnFreeSlot n s1 x
      | none => (s1, [])
    match k with
    | .ok x => some ({ s2 with snd := set s.snd i (.hold v x) }, evs)
    | .err => some ({ s2 with snd := set s.snd i .idle }, evs ++ [.sendErr i v])
    | .cancelled => some ({ s2 with snd := set s.snd i .idle }, evs ++ [.cancelled i v])
  -- `channel.rs:336-340`
  | .hold v x =>
    some ({ s with slots := set s.slots x (some v), bad := s.bad || (s.slots x).isSome,
                   snd := set s.snd i (.written v x) }, [])
  -- `channel.rs:343-352`
  | .written v x =>
    some ({ s with ready := s.ready ++ [x], bad := s.bad || decide (n ≤ s.ready.length),
                   snd := set s.snd i .pushed }, [.enq i v])
  -- `channel.rs:357`
  | .pushed =>
    let (s1, evs) := wakeR s
    some ({ s1 with snd := set s.snd i .idle }, evs ++ [.sendOk i])
  -- `channel.rs:543-545`
  | .dropW =>
    let (s1, evs) := wakeR s
    some ({ s1 with snd := set s.snd i .absent }, evs)

/-- The result of a finished `try_recv`: inside `recv` (`channel.rs:627-637`) the error `Empty` becomes `Pending`. -/
def emptyResult (m : Option Nat) : Rx T × List (Ev T) :=
  match m with
  | none => (.idle, [.recvEmpty])
  | some w => (.pend w, [.recvPending])

/-- The next critical section of the operation the receiver is executing. -/
def goR (n : Nat) (s : St T) : Option (St T × List (Ev T)) :=
  match s.rx with
  | .idle | .pend _ | .gone => none
  -- `channel.rs:624`
  | .poll0 w =>
    let (s1, evs) := register s w
    some ({ s1 with rx := .tr0 (some w) }, evs)
  -- `channel.rs:593-598`
  | .tr0 m =>
    match s.ready with
    | x :: q => some ({ s with ready := q, rx := .got m x }, [])
    | [] => some ({ s with rx := .empty m }, [])
  -- `channel.rs:602`
  | .got m x =>
    match s.slots x with
    | some v => some ({ s with slots := set s.slots x none, rx := .rd m x v }, [])
    | none => some ({ s with bad := true }, [])
  -- `channel.rs:607-609`
  | .rd _ x v =>
    let (s1, evs) := returnFreeSlot n s x
    some ({ s1 with rx := .idle }, evs ++ [.recvd v])
  -- `channel.rs:610-614`
  | .empty m =>
    if s.num = 0 then some ({ s with rx := .idle }, [.recvNoSender])
    else some ({ s with rx := (emptyResult (T := T) m).1 }, (emptyResult m).2)
  -- `channel.rs:670-673`
  | .drop0 => some ({ s with rcvDropped := true, rx := .drop1 }, [])
  -- `channel.rs:675-682`
  | .drop1 =>
    match s.ready.getLast? with
    | some x => some ({ s with ready := s.ready.dropLast, rx := .dgot x }, [])
    | none => some ({ s with rx := .drop2 }, [])
  -- `channel.rs:685`
  | .dgot x =>
    match s.slots x with
    | some v => some ({ s with slots := set s.slots x none, rx := .drop1 }, [.discarded v])
    | none => some ({ s with bad := true }, [])
  -- `channel.rs:688-690`
  | .drop2 =>
    match s.wq with
    | j :: q =>
      match s.lk j with
      | some l => some ({ s with wq := q, lk := set s.lk j (some { l with popped := true }) }, [.wokeS j l.w])
      | none => some ({ s with bad := true }, [])
    | [] => some ({ s with rx := .gone }, [])

/-- One step of the machine; `none` means that the action is not possible in this state (e.g. polling a future that does not
exist, or using a sender that is busy: excluded by Rust's ownership rules). -/
def step (n : Nat) (s : St T) (a : Act T) : Option (St T × List (Ev T)) :=
  match a with
  -- `Sender::clone`, `channel.rs:549-558`
  | .clone i j =>
    match s.snd i, s.snd j with
    | .idle, .absent => some ({ s with num := s.num + 1, snd := set s.snd j .idle }, [])
    | _, _ => none
  -- `Sender::drop`, `channel.rs:529-546`
  | .dropS i =>
    match s.snd i with
    | .idle =>
      some ({ s with bad := s.bad || decide (s.num = 0), num := s.num - 1,
                     snd := set s.snd i (if s.num - 1 = 0 then .dropW else .absent) }, [])
    | _ => none
  -- `try_send`, `channel.rs:361`
  | .startTry i v =>
    match s.snd i with
    | .idle => some ({ s with snd := set s.snd i (.try0 v) }, [.start i v])
    | _ => none
  -- `send`, `channel.rs:390-419`: no link and no slot yet
  | .startSend i v =>
    match s.snd i with
    | .idle =>
      some ({ s with snd := set s.snd i (.snd v), lk := set s.lk i none, sl := set s.sl i none }, [.start i v])
    | _ => none
  | .poll i w =>
    match s.snd i with
    | .snd v => some (pollSend s i v w, [])
    | _ => none
  -- the `send` future is dropped: `dropper` runs, `channel.rs:402-419`
  | .cancel i =>
    match s.snd i with
    | .snd v => some ({ s with snd := set s.snd i (.drop0 v .cancelled) }, [])
    | _ => none
  | .go i => goS n s i
  -- `Sender::is_closed`, `is_full`, `is_empty`, `channel.rs:505-526`
  | .sQuery i =>
    match s.snd i with
    | .idle =>
      some (s, [.sIsClosed s.rcvDropped, .sIsFull (decide (s.free = [])), .sIsEmpty (decide (s.free.length = n))])
    | _ => none
  -- `try_recv`, `channel.rs:591`
  | .startTryRecv =>
    match s.rx with
    | .idle => some ({ s with rx := .tr0 none }, [])
    | _ => none
  -- a poll of `recv`, `channel.rs:619-640`
  | .pollRecv w =>
    match s.rx with
    | .idle | .pend _ => some ({ s with rx := .poll0 w }, [])
    | _ => none
  | .cancelRecv =>
    match s.rx with
    | .pend _ => some ({ s with rx := .idle }, [])
    | _ => none
  -- `Receiver::drop`, `channel.rs:667`
  | .dropR =>
    match s.rx with
    | .idle => some ({ s with rx := .drop0 }, [])
    | _ => none
  | .goR => goR n s
  -- `Receiver::is_closed`, `is_full`, `is_empty`, `channel.rs:643-664`
  | .rQuery =>
    match s.rx with
    | .idle =>
      some (s, [.rIsClosed (decide (s.num = 0)), .rIsFull (decide (s.ready.length = n)),
                .rIsEmpty (decide (s.ready = []))])
    | _ => none

/-- An execution: a sequence of actions, collecting the events (oldest first). -/
def exec (n : Nat) (s : St T) : List (Act T) → Option (St T × List (Ev T))
  | [] => some (s, [])
  | a :: as =>
    match step n s a with
    | none => none
    | some (s1, e) =>
      match exec n s1 as with
      | none => none
      | some (s2, es) => some (s2, e ++ es)

/-- `s` is reachable, from a new channel of capacity `n`, with the history of events `tr`. -/
def Reach (n : Nat) (s : St T) (tr : List (Ev T)) : Prop := ∃ as, exec n (init n) as = some (s, tr)

end Verif.Channel
