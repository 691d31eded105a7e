/-!
# Signal

Model of `rtic-sync/src/signal.rs`. One action is one critical section (or one access to the waker registration, itself one
critical section, modelled in `Verif.WakerReg`). Any number of writers; one reader (C23). A waker is a number.
-/

namespace Verif.Signal

/-- What the reader is doing. The flag `f` tells whether the running `wait` is part of a `wait_fresh`. -/
inductive Rx where
  | idle
  /-- `wait_fresh` called, not polled yet, `signal.rs:228` -/
  | fresh0
  /-- `wait_fresh` being polled for the first time with waker `w`, before its `take`, `signal.rs:229` -/
  | fresh1 (w : Nat)
  /-- `wait` called, not polled yet, `signal.rs:211` -/
  | wait0
  /-- in a poll of `wait` with waker `w`, before `register`, `signal.rs:213` -/
  | poll0 (f : Bool) (w : Nat)
  /-- in a poll of `wait`, before `take`, `signal.rs:214` -/
  | poll1 (f : Bool) (w : Nat)
  /-- `wait` returned `Pending` to a poll with waker `w` -/
  | pend (f : Bool) (w : Nat)
deriving DecidableEq, Repr

/-- `struct Signal`, `signal.rs:23-28` (`Store::Unset` is `none`; the field `seen` is used by `Watch` only), the program counters of the writers
(`true`: the value is stored but the waker not yet woken, `signal.rs:149`) and of the reader. -/
structure St (T : Type) where
  store : Option T
  rwk : Option Nat
  wr : Nat → Bool
  rx : Rx

/-- Observable events. -/
inductive Ev (T : Type) where
  /-- a `write(v)` takes effect -/
  | stored (v : T)
  /-- a `clear()` takes effect -/
  | cleared
  /-- a read takes effect: by `try_read`, `wait` or `wait_fresh`; the result `none` means that there is no value -/
  | read (r : Option T)
  /-- `wait_fresh` is called -/
  | freshCall
  /-- the first poll of `wait_fresh` discards what is stored -/
  | evicted
  /-- `wait` (`f = false`) or `wait_fresh` (`f = true`) returns `v` -/
  | ret (f : Bool) (v : T)
  /-- the reader registers waker `w` -/
  | reg (w : Nat)
  | woke (w : Nat)
deriving DecidableEq, Repr

inductive Act (T : Type) where
  /-- writer `i` writes `some v` or clears, `signal.rs:140-147, 153-160` -/
  | write (i : Nat) (x : Option T)
  /-- writer `i` wakes, `signal.rs:149` -/
  | wake (i : Nat)
  | tryRead
  | wait | waitFresh
  | poll (w : Nat)
  /-- the next step of the poll -/
  | go
  /-- the `wait`/`wait_fresh` future is dropped -/
  | cancel
deriving DecidableEq, Repr

variable {T : Type}

def set (f : Nat → Bool) (i : Nat) (x : Bool) : Nat → Bool := fun j => if j = i then x else f j

/-- `Signal::new`, `signal.rs:54-61`. -/
def init : St T := { store := none, rwk := none, wr := fun _ => false, rx := .idle }

def step (s : St T) : Act T → Option (St T × List (Ev T))
  | .write i x =>
    if s.wr i then none
    else some ({ s with store := x, wr := set s.wr i true }, [match x with | some v => .stored v | none => .cleared])
  -- `signal.rs:149`, `waker_registration.rs:56-64`
  | .wake i =>
    if s.wr i then
      match s.rwk with
      | some w => some ({ s with rwk := none, wr := set s.wr i false }, [.woke w])
      | none => some ({ s with wr := set s.wr i false }, [])
    else none
  -- `signal.rs:188-204`
  | .tryRead =>
    match s.rx with
    | .idle => some ({ s with store := none }, [.read s.store])
    | _ => none
  | .wait =>
    match s.rx with
    | .idle => some ({ s with rx := .wait0 }, [])
    | _ => none
  | .waitFresh =>
    match s.rx with
    | .idle => some ({ s with rx := .fresh0 }, [.freshCall])
    | _ => none
  | .poll w =>
    match s.rx with
    | .fresh0 => some ({ s with rx := .fresh1 w }, [])
    | .wait0 => some ({ s with rx := .poll0 false w }, [])
    | .pend f _ => some ({ s with rx := .poll0 f w }, [])
    | _ => none
  | .go =>
    match s.rx with
    -- `signal.rs:229`, then `wait` is polled
    | .fresh1 w => some ({ s with store := none, rx := .poll0 true w }, [.evicted])
    -- `signal.rs:213`, `waker_registration.rs:24-53`
    | .poll0 f w =>
      match s.rwk with
      | some w2 =>
        if w2 = w then some ({ s with rx := .poll1 f w }, [.reg w])
        else some ({ s with rwk := some w, rx := .poll1 f w }, [.woke w2, .reg w])
      | none => some ({ s with rwk := some w, rx := .poll1 f w }, [.reg w])
    -- `signal.rs:214-217`
    | .poll1 f w =>
      match s.store with
      | none => some ({ s with store := none, rx := .pend f w }, [.read none])
      | some v => some ({ s with store := none, rx := .idle }, [.read (some v), .ret f v])
    | _ => none
  | .cancel =>
    match s.rx with
    | .fresh0 | .wait0 | .pend _ _ => some ({ s with rx := .idle }, [])
    | _ => none

/-- An execution, collecting the events (oldest first). -/
def exec (s : St T) : List (Act T) → Option (St T × List (Ev T))
  | [] => some (s, [])
  | a :: as =>
    match step s a with
    | none => none
    | some (s1, e) =>
      match exec s1 as with
      | none => none
      | some (s2, es) => some (s2, e ++ es)

def Reach (s : St T) (tr : List (Ev T)) : Prop := ∃ as, exec init as = some (s, tr)

/-! ## Reader handles -/

/-- `reader_alive` and the live readers; the same code is used by `Signal` and `Watch`. -/
structure Handles where
  flag : Bool
  live : List Nat
deriving DecidableEq, Repr

/-- `try_take_reader` giving handle `i`, `signal.rs:98-104`, `watch.rs:65-71` (an atomic swap); the result tells whether a reader was handed out.
`take_reader` and `split` (`signal.rs:79-83, 111-117`, `watch.rs:46-50, 78-84`) panic if it was not. -/
def tryTake (h : Handles) (i : Nat) : Handles × Bool :=
  if h.flag then ({ h with flag := true }, false) else ({ flag := true, live := i :: h.live }, true)

/-- Drop of reader `i`, `signal.rs:168-172`, `watch.rs:125-129`. -/
def dropReader (h : Handles) (i : Nat) : Handles := { flag := false, live := h.live.erase i }

/-- Histories of reader handles. -/
inductive HReach : Handles → Prop where
  | init : HReach { flag := false, live := [] }
  | take {h : Handles} (i : Nat) : HReach h → HReach (tryTake h i).1
  | drop {h : Handles} (i : Nat) (hi : i ∈ h.live) : HReach h → HReach (dropReader h i)

end Verif.Signal
