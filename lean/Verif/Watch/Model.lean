/-!
# Watch

Model of `rtic-sync/src/watch.rs` (which reuses `Signal` of `signal.rs`). One action is one critical section or one atomic access. Any number of
writers; one reader (C23). A waker is a number.
-/

namespace Verif.Watch

/-- What the reader is doing. -/
inductive Rx (T : Type) where
  | idle
  /-- `try_get` has copied `v` and not yet marked it as seen, `watch.rs:167-168` -/
  | got (v : T)
  /-- `changed` called, not polled yet, `watch.rs:179` -/
  | ch0
  /-- in a poll of `changed` with waker `w`: before `register`, `watch.rs:181` -/
  | c0 (w : Nat)
  /-- before `get_seen`, `watch.rs:183` -/
  | c1 (w : Nat)
  /-- `get_seen` was `false`; before `get_inner`, `watch.rs:187` -/
  | c2 (w : Nat)
  /-- value copied; before `mark_seen`, `watch.rs:190` -/
  | c3 (w : Nat) (v : T)
  /-- `changed` returned `Pending` to a poll with waker `w` -/
  | pend (w : Nat)
deriving DecidableEq, Repr

/-- `struct Signal`, `signal.rs:23-28` as used by `Watch`, and the program counters of the writers (`true`: the value is stored but the waker not
yet woken, `signal.rs:149`) and of the reader. -/
structure St (T : Type) where
  store : Option T
  seen : Bool
  rwk : Option Nat
  wr : Nat → Bool
  rx : Rx T

/-- Observable events. -/
inductive Ev (T : Type) where
  /-- a `write(v)` takes effect -/
  | stored (v : T)
  /-- the reader copies the stored value (`none`: nothing was ever written) -/
  | copied (r : Option T)
  /-- the reader has marked the value as seen -/
  | marked
  /-- `try_get` returns -/
  | gotRet (r : Option T)
  /-- `changed` returns `v` -/
  | ret (v : T)
  | reg (w : Nat)
  | woke (w : Nat)
deriving DecidableEq, Repr

inductive Act (T : Type) where
  /-- writer `i` stores, `watch.rs:115-117`, `signal.rs:140-147` -/
  | write (i : Nat) (v : T)
  /-- writer `i` wakes, `signal.rs:149` -/
  | wake (i : Nat)
  /-- `try_get` is called and copies the value, `watch.rs:164-165` -/
  | tryGet
  | changed
  | poll (w : Nat)
  /-- the next step of the reader -/
  | go
  /-- the `changed` future is dropped -/
  | cancel
deriving DecidableEq, Repr

variable {T : Type}

def set (f : Nat → Bool) (i : Nat) (x : Bool) : Nat → Bool := fun j => if j = i then x else f j

/-- `Watch::new`, `watch.rs:32-34`, `signal.rs:54-61`. -/
def init : St T := { store := none, seen := false, rwk := none, wr := fun _ => false, rx := .idle }

def step (s : St T) : Act T → Option (St T × List (Ev T))
  -- one critical section, `signal.rs:141-147`
  | .write i v =>
    if s.wr i then none
    else some ({ s with store := some v, seen := false, wr := set s.wr i true }, [.stored v])
  -- `signal.rs:149`, `waker_registration.rs:56-64`
  | .wake i =>
    if s.wr i then
      match s.rwk with
      | some w => some ({ s with rwk := none, wr := set s.wr i false }, [.woke w])
      | none => some ({ s with wr := set s.wr i false }, [])
    else none
  -- `watch.rs:165-167`
  | .tryGet =>
    match s.rx with
    | .idle =>
      match s.store with
      | none => some (s, [.copied none, .gotRet none])
      | some v => some ({ s with rx := .got v }, [.copied (some v)])
    | _ => none
  | .changed =>
    match s.rx with
    | .idle => some ({ s with rx := .ch0 }, [])
    | _ => none
  | .poll w =>
    match s.rx with
    | .ch0 => some ({ s with rx := .c0 w }, [])
    | .pend _ => some ({ s with rx := .c0 w }, [])
    | _ => none
  | .go =>
    match s.rx with
    -- `watch.rs:168-169`
    | .got v => some ({ s with seen := true, rx := .idle }, [.marked, .gotRet (some v)])
    -- `watch.rs:181`, `waker_registration.rs:24-53`
    | .c0 w =>
      match s.rwk with
      | some w2 =>
        if w2 = w then some ({ s with rx := .c1 w }, [.reg w])
        else some ({ s with rwk := some w, rx := .c1 w }, [.woke w2, .reg w])
      | none => some ({ s with rwk := some w, rx := .c1 w }, [.reg w])
    -- `watch.rs:183-185`
    | .c1 w => if s.seen then some ({ s with rx := .pend w }, []) else some ({ s with rx := .c2 w }, [])
    -- `watch.rs:187-189`
    | .c2 w =>
      match s.store with
      | none => some ({ s with rx := .pend w }, [.copied none])
      | some v => some ({ s with rx := .c3 w v }, [.copied (some v)])
    -- `watch.rs:190-191`
    | .c3 _ v => some ({ s with seen := true, rx := .idle }, [.marked, .ret v])
    | _ => none
  | .cancel =>
    match s.rx with
    | .ch0 | .pend _ => some ({ s with rx := .idle }, [])
    | _ => none

/-- An execution, collecting the events (oldest first). -/
def exec (s : St T) : List (Act T) → Option (St T × List (Ev T))
  | [] => some (s, [])
  | a :: as =>
    match step s a with
    | none => none
    | some (s1, e) =>
      match exec s1 as with
      | none => none
      | some (s2, es) => some (s2, e ++ es)

def Reach (s : St T) (tr : List (Ev T)) : Prop := ∃ as, exec init as = some (s, tr)

end Verif.Watch
