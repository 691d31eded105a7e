import Verif.Intrusive.Own
import Verif.TimerList.Props
import Verif.TimerQueue.Props

/-!
# The timer queue on the real, intrusive list

The same code as `Verif.TimerQueue.Model` (`rtic-time/src/timer_queue.rs`), with the memory it works on: the queue is the linked list of `rtic-time/src/linked_list.rs` (model `Verif.TimerList.TL`), the link of a `Delay` (`link_ptr`,
`timer_queue.rs:209`) lives in the memory of the `Delay`, whose address is chosen freely when it is created, as long as no other live `Delay` is there. The memory is dead, and can be reused, as soon as the `Delay` has been dropped. An access to
memory that holds no live link, or a search loop that does not end, sets `bad`.

`Verif.TimerQueue.Model` explains the granularity, the program counters and the environment assumptions (guards). Ghost state: `who` (which `Delay` was created at an address, for the events), `ids` (all `Delay`s created so far, to state the
guards).
-/

namespace Verif.Intrusive.Tim

open Verif.TimerList Verif.TimerQueue

structure PSt where
  now : Nat
  /-- the list and the memory of the links -/
  c : TL
  inst : Nat → Nat
  pc : Nat → Dpc
  /-- address of the `Delay` `i` -/
  fut : Nat → Option Nat
  /-- memory in use by a live `Delay` -/
  used : Nat → Bool
  who : Nat → Nat
  ids : List Nat
  h : Hpc
  en : Bool
  flag : Bool
  pend : Bool
  other : Bool
  cmp : Option Nat
  req : Option Nat
  bad : Bool

def PSt.irq (s : PSt) : Bool := s.pend || (s.flag && s.en) || s.other

def init (noop : Bool) : PSt :=
  { now := 0, c := TimerList.empty, inst := fun _ => 0, pc := fun _ => .none, fut := fun _ => none, used := fun _ => false, who := fun _ => 0, ids := [], h := .idle, en := noop, flag := false,
    pend := false, other := false, cmp := none, req := none, bad := false }

/-- The instants of the links that were not popped. -/
def PSt.waiting (s : PSt) : List Nat :=
  s.ids.filterMap fun i =>
    match s.fut i with
    | none => none
    | some a =>
      match s.c.mem a with
      | some nd => if nd.val.popped then none else some nd.val.time
      | none => none

/-- The memory of `Delay` `i` at address `a` is released. -/
def release (s : PSt) (i a : Nat) : PSt :=
  { s with c := { s.c with mem := upd s.c.mem a none }, fut := fset s.fut i none, used := fset s.used a false, pc := fset s.pc i .none }

/-- One step. `x` is the address of the `Delay` that `create` creates. -/
def step (b : Cfg) (s : PSt) (a : Act) (x : Nat) : Option (PSt × List Ev) :=
  match a with
  | .tick m o p =>
    if (∀ t ∈ s.waiting, s.now + 1 < t + half b.w) ∧ (∀ t, s.h.inst? = some t → s.now + 1 < t + half b.w) ∧ (s.cmp = some (s.now + 1) → (m || o || p) = true) then
      some ({ s with now := s.now + 1, flag := s.flag || m, other := s.other || o, pend := s.pend || p }, [])
    else none
  -- `timer_queue.rs:191-203`: `link_ptr` is `None`
  | .create i t =>
    match s.pc i with
    | .none =>
      if s.used x = false then
        some ({ s with pc := fset s.pc i .alive, inst := fset s.inst i t, fut := fset s.fut i (some x), used := fset s.used x true, who := fset s.who x i, ids := i :: s.ids }, [])
      else none
    | _ => none
  -- `timer_queue.rs:217-228`
  | .poll i wk =>
    match s.pc i with
    | .alive =>
      if near b.w s.now (s.inst i) then
        if atLeast b.w s.now (s.inst i) then some (s, [.ready i])
        else
          match s.fut i with
          | none => some ({ s with bad := true }, [])
          | some a =>
            match s.c.mem a with
            | some _ => some (s, [])
            | none => some ({ s with pc := fset s.pc i (.p1 wk) }, [])
      else none
    | _ => none
  -- `timer_queue.rs:229-242`
  | .ins i =>
    match s.pc i with
    | .p1 wk =>
      if near b.w s.now (s.inst i) ∧ ∀ t ∈ s.waiting, near b.w t (s.inst i) = true then
        match s.fut i with
        | none => some ({ s with bad := true }, [])
        | some a =>
          match (s.c.newLink a wk (s.inst i)).insert b.w a with
          | some (c, upd) => some ({ s with c := c, pc := fset s.pc i (if upd then .p2 else .alive) }, [.inserted i])
          | none => some ({ s with bad := true }, [])
      else none
    | _ => none
  | .pend i =>
    match s.pc i with
    | .p2 => some ({ s with pend := true, pc := fset s.pc i .alive }, [])
    | _ => none
  -- `timer_queue.rs:253-261`
  | .drop i =>
    match s.pc i with
    | .alive =>
      match s.fut i with
      | none => some ({ s with bad := true }, [])
      | some a =>
        match s.c.mem a with
        | some nd => if nd.val.popped then some (release s i a, [.dropped i]) else some ({ s with pc := fset s.pc i .d1 }, [])
        | none => some (release s i a, [.dropped i])
    | _ => none
  -- `timer_queue.rs:262`
  | .del i =>
    match s.pc i with
    | .d1 =>
      match s.fut i with
      | none => some ({ s with bad := true }, [])
      | some a =>
        match s.c.delete a with
        | some c => some (release { s with c := c } i a, [.dropped i])
        | none => some ({ s with bad := true }, [])
    | _ => none
  | .start =>
    match s.h with
    | .idle => if s.irq then some ({ s with pend := false, h := .h0 }, []) else none
    | _ => none
  | .hgo =>
    match s.h with
    | .h0 => some ({ s with flag := false, cmp := none, h := .h0b }, [])
    | .h0b => some ({ s with other := false, h := .h1 }, [])
    -- `pop_if`, `timer_queue.rs:105-132`: the closure also stores `head.release_at`
    | .h1 =>
      match s.c.head with
      | none => some ({ s with h := .h5 }, [])
      | some hd =>
        match s.c.mem hd with
        | none => some ({ s with bad := true }, [])
        | some nd =>
          match s.c.popIf (fun v => atLeast b.w s.now v.time) with
          | none => some ({ s with bad := true }, [])
          | some (c, some v) => some ({ s with c := c, h := .h2 v.waker }, [.popped { id := s.who hd, wk := v.waker, time := v.time } s.now])
          | some (c, none) => some ({ s with c := c, h := .h3 nd.val.time }, [])
    | .h2 wk => some ({ s with h := .h1 }, [.woke wk])
    | .h3 t => some ({ s with en := true, h := .h3b t }, [])
    | .h4 t => if atLeast b.w s.now t then some ({ s with h := .h1 }, []) else some ({ s with h := .idle }, [])
    | .h5 => some ({ s with en := b.noop, h := .idle }, [])
    | _ => none
  | .arm c =>
    match s.h with
    | .h3b t => if s.now < t → (s.now < c ∧ c ≤ t + b.sl) ∨ s.irq = true then some ({ s with cmp := some c, req := some t, h := .h4 t }, []) else none
    | _ => none

/-- An execution: actions, each with the address for the `Delay` it may create. -/
def exec (b : Cfg) (s : PSt) : List (Act × Nat) → Option (PSt × List Ev)
  | [] => some (s, [])
  | a :: as =>
    match step b s a.1 a.2 with
    | none => none
    | some (s1, e) =>
      match exec b s1 as with
      | none => none
      | some (s2, es) => some (s2, e ++ es)

def Reach (b : Cfg) (s : PSt) (tr : List Ev) : Prop := ∃ as, exec b (init b.noop) as = some (s, tr)

end Verif.Intrusive.Tim
