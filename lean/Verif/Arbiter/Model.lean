/-!
# The arbiter

Model of `rtic-sync/src/arbiter.rs`. One action is one critical section of the source. Clients (futures returned by
`access()`, or callers of `try_access()`) are numbered; any number of them interleave arbitrarily. The wait queue is used
through the list interface proved in `Verif.WaitQueue` (C12, C13). A waker is a number.
-/

namespace Verif.Arbiter

/-- Where a client is. -/
inductive Pc where
  /-- nothing -/
  | none
  /-- has an `access()` future that has not completed, `arbiter.rs:75-126` -/
  | fut
  /-- `poll_fn` returned `Ready`, before `drop(dropper)`, `arbiter.rs:129` -/
  | got
  /-- holds an `ExclusiveAccess` token, `arbiter.rs:132-135, 149-152` -/
  | token
deriving DecidableEq, Repr

/-- A link of the wait queue. -/
structure Lk where
  w : Nat
  popped : Bool
deriving DecidableEq, Repr

/-- `struct Arbiter` (`arbiter.rs:54-58`) and the clients. -/
structure St where
  taken : Bool
  /-- waiting clients, oldest first -/
  wq : List Nat
  /-- local variable `link_ptr` of the `access` future of each client, `arbiter.rs:76` -/
  lk : Nat → Option Lk
  pc : Nat → Pc

/-- Observable events. -/
inductive Ev where
  /-- the access of `i` starts to wait -/
  | waiting (i : Nat)
  /-- the arbiter is handed to waiting client `i`, whose waker `w` is woken -/
  | handed (i w : Nat)
  /-- `access()` or `try_access()` of `i` succeeds -/
  | acquired (i : Nat)
  | tryFailed (i : Nat)
  | released (i : Nat)
  | cancelled (i : Nat)
deriving DecidableEq, Repr

inductive Act where
  | access (i : Nat)
  | poll (i w : Nat)
  /-- `drop(dropper)` and creation of the token -/
  | fin (i : Nat)
  /-- the `access()` future is dropped -/
  | cancel (i : Nat)
  | tryAccess (i : Nat)
  | dropTok (i : Nat)
deriving DecidableEq, Repr

def set {β : Type} (f : Nat → β) (i : Nat) (x : β) : Nat → β := fun j => if j = i then x else f j

/-- `Arbiter::new`, `arbiter.rs:65-71`. -/
def init : St := { taken := false, wq := [], lk := fun _ => none, pc := fun _ => .none }

def step (s : St) : Act → Option (St × List Ev)
  -- `arbiter.rs:75-90`
  | .access i =>
    match s.pc i with
    | .none => some ({ s with pc := set s.pc i .fut, lk := set s.lk i none }, [])
    | _ => none
  -- `arbiter.rs:92-125`
  | .poll i w =>
    match s.pc i with
    | .fut =>
      if s.wq = [] ∧ s.taken = false then
        some ({ s with taken := true, pc := set s.pc i .got }, [.acquired i])
      else
        match s.lk i with
        | some l =>
          if l.popped then some ({ s with pc := set s.pc i .got }, [.acquired i])
          else some (s, [])
        | none =>
          some ({ s with lk := set s.lk i (some { w := w, popped := false }), wq := s.wq ++ [i] }, [.waiting i])
    | _ => none
  -- `arbiter.rs:129-135`
  | .fin i =>
    match s.pc i with
    | .got => some ({ s with wq := s.wq.erase i, lk := set s.lk i none, pc := set s.pc i .token }, [])
    | _ => none
  -- drop of the future: `arbiter.rs:83-90`
  | .cancel i =>
    match s.pc i with
    | .fut => some ({ s with wq := s.wq.erase i, lk := set s.lk i none, pc := set s.pc i .none }, [.cancelled i])
    | _ => none
  -- `arbiter.rs:140-157`
  | .tryAccess i =>
    match s.pc i with
    | .none =>
      if s.wq = [] ∧ s.taken = false then
        some ({ s with taken := true, pc := set s.pc i .token }, [.acquired i])
      else some (s, [.tryFailed i])
    | _ => none
  -- `arbiter.rs:167-179`
  | .dropTok i =>
    match s.pc i with
    | .token =>
      match s.wq with
      | [] => some ({ s with taken := false, pc := set s.pc i .none }, [.released i])
      | j :: q =>
        match s.lk j with
        | some l =>
          some ({ s with wq := q, lk := set s.lk j (some { l with popped := true }), pc := set s.pc i .none },
            [.released i, .handed j l.w])
        | none => none
    | _ => none

/-- An execution, collecting the events (oldest first). -/
def exec (s : St) : List Act → Option (St × List Ev)
  | [] => some (s, [])
  | a :: as =>
    match step s a with
    | none => none
    | some (s1, e) =>
      match exec s1 as with
      | none => none
      | some (s2, es) => some (s2, e ++ es)

def Reach (s : St) (tr : List Ev) : Prop := ∃ as, exec init as = some (s, tr)

end Verif.Arbiter
