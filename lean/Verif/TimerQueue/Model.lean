import Verif.Ticks.Model

/-!
# The timer queue: delays, interrupt handler and timer hardware

Model of `rtic-time/src/timer_queue.rs`. One action is one critical section of the list, one access to the clock or to the timer hardware, or one
tick of the clock; all interleavings of the handler with any number of `Delay` futures and with the clock are allowed.

Simplifications: the linked list is the list of its entries in order (`Verif.TimerList` proves that the pointer code implements this); true time is an unbounded
number `now`, the code sees only `w`-bit tick values (`Ticks.isAtLeast` on `BitVec w`). The environment assumptions that the
documentation makes are guards of the actions: instants are less than half the counter range (`half w`) away from the clock when
they are polled or inserted and from the other entries, and a waiting entry is not left unhandled for half the range (guard of `tick`).
-/

namespace Verif.TimerQueue

/-- An entry of the list, `timer_queue.rs:17-21`; `id` stands for the address of the link. -/
structure E where
  id : Nat
  wk : Nat
  time : Nat
deriving DecidableEq, Repr

/-- What a `Delay` future is doing. -/
inductive Dpc where
  | none
  | alive
  /-- in `poll` with waker `w`: not ready, no link yet, about to insert, `timer_queue.rs:228` -/
  | p1 (w : Nat)
  /-- inserted as the new head, about to `pend_interrupt`, `timer_queue.rs:243` -/
  | p2
  /-- in `drop`: `was_popped` was read as false, about to delete, `timer_queue.rs:262` -/
  | d1
deriving DecidableEq, Repr

/-- Program counter of the interrupt handler. -/
inductive Hpc where
  | idle
  /-- before `clear_compare_flag`, `timer_queue.rs:101` -/
  | h0
  /-- before `on_interrupt`, `timer_queue.rs:102` -/
  | h0b
  /-- before `pop_if`, `timer_queue.rs:106` -/
  | h1
  /-- before `wake`, `timer_queue.rs:117` -/
  | h2 (wk : Nat)
  /-- before `enable_timer`, `timer_queue.rs:120` -/
  | h3 (t : Nat)
  /-- before `set_compare`, `timer_queue.rs:121` -/
  | h3b (t : Nat)
  /-- before the second read of the clock, `timer_queue.rs:123` -/
  | h4 (t : Nat)
  /-- before `disable_timer`, `timer_queue.rs:133` -/
  | h5
deriving DecidableEq, Repr

structure St where
  now : Nat
  /-- the list, head first -/
  q : List E
  /-- `Delay::instant` -/
  inst : Nat → Nat
  pc : Nat → Dpc
  /-- `Delay::link_ptr`: `none`, or the link's `was_popped` -/
  lk : Nat → Option Bool
  h : Hpc
  /-- compare interrupt enabled -/
  en : Bool
  /-- compare event flag of the peripheral -/
  flag : Bool
  /-- interrupt pending in the interrupt controller: pended by software, or (SysTick) by the exception source; reset when the handler is entered -/
  pend : Bool
  /-- event flag of another, always enabled source of the same interrupt (counter overflow, half period); reset by `on_interrupt` -/
  other : Bool
  /-- true time at which the hardware compare matches -/
  cmp : Option Nat
  /-- argument of the last `set_compare` -/
  req : Option Nat

/-- Observable events. -/
inductive Ev where
  /-- the handler takes out entry `e` when the clock shows `now` -/
  | popped (e : E) (now : Nat)
  | woke (wk : Nat)
  | ready (i : Nat)
  | inserted (i : Nat)
  | dropped (i : Nat)
deriving DecidableEq, Repr

inductive Act where
  /-- one tick of the clock; the hardware raises the compare flag (`m`), the other sources (`o`), pends the interrupt directly (`p`) -/
  | tick (m o p : Bool)
  /-- a `Delay` for instant `t` is created, `timer_queue.rs:191-203` -/
  | create (i t : Nat)
  /-- `Delay::poll` up to the creation of the link, `timer_queue.rs:217-228` -/
  | poll (i w : Nat)
  /-- creation and insertion of the link, `timer_queue.rs:229-242` -/
  | ins (i : Nat)
  /-- `pend_interrupt`, `timer_queue.rs:243-245` -/
  | pend (i : Nat)
  /-- `Delay::drop` up to `delete`, `timer_queue.rs:253-261` -/
  | drop (i : Nat)
  /-- `delete`, `timer_queue.rs:262` -/
  | del (i : Nat)
  /-- the interrupt handler is entered -/
  | start
  /-- the next step of the handler -/
  | hgo
  /-- `set_compare` of the handler; the backend arms the hardware for `c` -/
  | arm (c : Nat)
deriving DecidableEq, Repr

def set {β : Type} (f : Nat → β) (i : Nat) (x : β) : Nat → β := fun j => if j = i then x else f j

/-- Half the range of a `w`-bit counter. -/
def half (w : Nat) : Nat := 2 ^ (w - 1)

/-- `Backend::now().is_at_least(t)` on tick values, `tick_type.rs:18-24`. -/
def atLeast (w now t : Nat) : Bool := Ticks.isAtLeast (BitVec.ofNat w now) (BitVec.ofNat w t)

/-- `<` of two entries on tick values, `timer_queue.rs:39-43`. -/
def before (w t t' : Nat) : Bool := Ticks.compare (BitVec.ofNat w t) (BitVec.ofNat w t') == .lt

/-- `LinkedList::insert`, `linked_list.rs:100-165`. -/
def insE (w : Nat) (e : E) : List E → List E
  | [] => [e]
  | x :: q => if before w e.time x.time then e :: x :: q else x :: insE w e q

/-- Whether `insert` reports a new head, `linked_list.rs:120, 132, 151, 163`. -/
def headUpd (w : Nat) (e : E) : List E → Bool
  | [] => true
  | x :: _ => before w e.time x.time

/-- The interrupt line. -/
def St.irq (s : St) : Bool := s.pend || (s.flag && s.en) || s.other

def near (w a b : Nat) : Bool := decide (a < b + half w ∧ b < a + half w)

/-- The instant the handler works on. -/
def Hpc.inst? : Hpc → Option Nat
  | .h3 t | .h3b t | .h4 t => some t
  | _ => .none

/-- Initial state; `en` as left by the initialization of the backend. -/
def init (noop : Bool) : St :=
  { now := 0, q := [], inst := fun _ => 0, pc := fun _ => .none, lk := fun _ => none, h := .idle, en := noop, flag := false,
    pend := false, other := false, cmp := none, req := none }

/-- Parameters of the backend. -/
structure Cfg where
  /-- width of the tick type -/
  w : Nat
  /-- whether `enable_timer`/`disable_timer` have the default empty body (`rtic-time/src/timer_queue/backend.rs:32, 40`) or switch the compare interrupt
  (stm32, silabs timer) -/
  noop : Bool
  /-- how late the hardware compare may be armed relative to the requested instant (0; 2 for the nRF RTC, the duration of `set_compare` on RP chips, see C33) -/
  sl : Nat

def step (b : Cfg) (s : St) : Act → Option (St × List Ev)
  -- the hardware raises the interrupt at the time it is armed for, and may raise it at any other time
  | .tick m o p =>
    if (∀ e ∈ s.q, s.now + 1 < e.time + half b.w) ∧ (∀ t, s.h.inst? = some t → s.now + 1 < t + half b.w) ∧
        (s.cmp = some (s.now + 1) → (m || o || p) = true) then
      some ({ s with now := s.now + 1, flag := s.flag || m, other := s.other || o, pend := s.pend || p }, [])
    else none
  | .create i t =>
    match s.pc i with
    | .none => some ({ s with pc := set s.pc i .alive, inst := set s.inst i t, lk := set s.lk i none }, [])
    | _ => none
  | .poll i wk =>
    match s.pc i with
    | .alive =>
      if near b.w s.now (s.inst i) then
        if atLeast b.w s.now (s.inst i) then some (s, [.ready i])
        else
          match s.lk i with
          | some _ => some (s, [])
          | none => some ({ s with pc := set s.pc i (.p1 wk) }, [])
      else none
    | _ => none
  | .ins i =>
    match s.pc i with
    | .p1 wk =>
      if near b.w s.now (s.inst i) ∧ ∀ e ∈ s.q, near b.w e.time (s.inst i) = true then
        let e : E := { id := i, wk := wk, time := s.inst i }
        some ({ s with q := insE b.w e s.q, lk := set s.lk i (some false),
                       pc := set s.pc i (if headUpd b.w e s.q then .p2 else .alive) }, [.inserted i])
      else none
    | _ => none
  | .pend i =>
    match s.pc i with
    | .p2 => some ({ s with pend := true, pc := set s.pc i .alive }, [])
    | _ => none
  | .drop i =>
    match s.pc i with
    | .alive =>
      match s.lk i with
      | some false => some ({ s with pc := set s.pc i .d1 }, [])
      | _ => some ({ s with pc := set s.pc i .none }, [.dropped i])
    | _ => none
  | .del i =>
    match s.pc i with
    | .d1 => some ({ s with q := s.q.filter (fun e => e.id ≠ i), pc := set s.pc i .none }, [.dropped i])
    | _ => none
  | .start =>
    match s.h with
    | .idle => if s.irq then some ({ s with pend := false, h := .h0 }, []) else none
    | _ => none
  | .hgo =>
    match s.h with
    -- `clear_compare_flag`; it may also disarm the compare (`silabs/rtcc.rs:137-138` switches the channel off)
    | .h0 => some ({ s with flag := false, cmp := none, h := .h0b }, [])
    -- `on_interrupt`
    | .h0b => some ({ s with other := false, h := .h1 }, [])
    -- `pop_if`
    | .h1 =>
      match s.q with
      | [] => some ({ s with h := .h5 }, [])
      | e :: q =>
        if atLeast b.w s.now e.time then
          some ({ s with q := q, lk := set s.lk e.id (some true), h := .h2 e.wk }, [.popped e s.now])
        else some ({ s with lk := set s.lk e.id (some false), h := .h3 e.time }, [])
    | .h2 wk => some ({ s with h := .h1 }, [.woke wk])
    | .h3 t => some ({ s with en := true, h := .h3b t }, [])
    | .h4 t => if atLeast b.w s.now t then some ({ s with h := .h1 }, []) else some ({ s with h := .idle }, [])
    | .h5 => some ({ s with en := b.noop, h := .idle }, [])
    | _ => none
  | .arm c =>
    match s.h with
    -- the backend arms the compare for a future instant, the requested one or an earlier one (or slightly later one, `sl`), unless the instant is in the past or the
    -- interrupt is pending anyway (a counter overflow during `set_compare`). That real timers do this is proved in `Verif.TimerHw` from C33.
    | .h3b t => if s.now < t → (s.now < c ∧ c ≤ t + b.sl) ∨ s.irq = true then some ({ s with cmp := some c, req := some t, h := .h4 t }, []) else none
    | _ => none

/-- An execution, collecting the events (oldest first). -/
def exec (b : Cfg) (s : St) : List Act → Option (St × List Ev)
  | [] => some (s, [])
  | a :: as =>
    match step b s a with
    | none => none
    | some (s1, e) =>
      match exec b s1 as with
      | none => none
      | some (s2, es) => some (s2, e ++ es)

def Reach (b : Cfg) (s : St) (tr : List Ev) : Prop := ∃ as, exec b (init b.noop) as = some (s, tr)

end Verif.TimerQueue
