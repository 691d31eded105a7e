/-!
# `make_channel!`

Model of `rtic-sync/src/channel.rs:188-212`: one expansion of the macro, i.e. one `static CHANNEL` and one `static CHECK`, executed by any number of callers (tasks on one or several cores), any number of
times, in every interleaving of their accesses.

Simplifications: `critical_section::with` is a lock (on one core: interrupts disabled): while one caller is inside, no other caller is. A caller that panics does not go on; the critical section may stay
entered for ever (no unwinding) or not.
-/

namespace Verif.MakeChannel

/-- Where a caller is. -/
inductive Pc where
  | idle
  /-- in the critical section, before the test of `CHECK`, line 199 -/
  | test
  /-- before the store, line 203 -/
  | store
  /-- before the end of the critical section, line 204 -/
  | leave
  /-- before `CHANNEL.split()`, line 210 -/
  | split
  /-- `panic!`, line 200 -/
  | panicked
deriving DecidableEq, Repr

structure St where
  /-- `CHECK`, line 195 -/
  check : Nat
  /-- who is in the critical section -/
  owner : Option Nat
  pc : Nat → Pc

inductive Ev where
  /-- caller `i` panicked: `call to the same make_channel instance twice` -/
  | panic (i : Nat)
  /-- caller `i` got a sender and a receiver of `CHANNEL` -/
  | ends (i : Nat)
deriving DecidableEq, Repr

inductive Act where
  /-- caller `i` executes the macro and enters the critical section, line 198 -/
  | call (i : Nat)
  /-- the next access of caller `i` -/
  | go (i : Nat)
  /-- the critical section of a caller that panicked ends (unwinding) -/
  | unwind (i : Nat)
deriving DecidableEq, Repr

def set (f : Nat → Pc) (i : Nat) (x : Pc) : Nat → Pc := fun j => if j = i then x else f j

def step (s : St) : Act → Option (St × List Ev)
  | .call i =>
    match s.pc i, s.owner with
    | .idle, none => some ({ s with owner := some i, pc := set s.pc i .test }, [])
    | _, _ => none
  | .go i =>
    match s.pc i with
    | .test => if s.check ≠ 0 then some ({ s with pc := set s.pc i .panicked }, [.panic i]) else some ({ s with pc := set s.pc i .store }, [])
    | .store => some ({ s with check := 1, pc := set s.pc i .leave }, [])
    | .leave => some ({ s with owner := none, pc := set s.pc i .split }, [])
    | .split => some ({ s with pc := set s.pc i .idle }, [.ends i])
    | _ => none
  | .unwind i =>
    match s.pc i with
    | .panicked => if s.owner = some i then some ({ s with owner := none }, []) else none
    | _ => none

/-- `static CHECK: AtomicU8 = AtomicU8::new(0)` -/
def init : St := { check := 0, owner := none, pc := fun _ => .idle }

def exec (s : St) : List Act → Option (St × List Ev)
  | [] => some (s, [])
  | a :: as =>
    match step s a with
    | none => none
    | some (s1, e) =>
      match exec s1 as with
      | none => none
      | some (s2, es) => some (s2, e ++ es)

end Verif.MakeChannel
