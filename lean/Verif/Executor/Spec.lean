import Verif.Executor.Model

/-! # Specification vocabulary for the executor: histories -/

namespace Verif.Executor

/-- arguments of the spawns of `t` that returned `Ok`, in order -/
def oks (t : Nat) : List Ev → List Nat
  | [] => []
  | .ok t' a :: tr => if t' = t then a :: oks t tr else oks t tr
  | _ :: tr => oks t tr

/-- arguments with which the body of `t` started, in order -/
def starts (t : Nat) : List Ev → List Nat
  | [] => []
  | .started t' a :: tr => if t' = t then a :: starts t tr else starts t tr
  | _ :: tr => starts t tr

/-- number of completions of `t` -/
def dones (t : Nat) : List Ev → Nat
  | [] => 0
  | .completed t' :: tr => if t' = t then dones t tr + 1 else dones t tr
  | _ :: tr => dones t tr

/-- number of polls of `t` -/
def polls (t : Nat) : List Ev → Nat
  | [] => 0
  | .polled t' :: tr => if t' = t then polls t tr + 1 else polls t tr
  | _ :: tr => polls t tr

/-- does the action, taken in state `s`, make `t` due: the access of a spawn or of a waker of `t` that sets the flag -/
def flags (t : Nat) (s : St) : Act → Bool
  | .thr i => decide (s.pc i = .s3 t) || decide (s.pc i = .w1 t)
  | _ => false

/-- number of such actions in the execution of `acts` from `s` -/
def flagCount (c : Cfg) (t : Nat) : St → List Act → Nat
  | _, [] => 0
  | s, a :: as =>
    match step c s a with
    | none => 0
    | some (s1, _) => (if flags t s a then 1 else 0) + flagCount c t s1 as

/-- number of dispatcher accesses in a schedule -/
def dispCount : List Act → Nat
  | [] => 0
  | .disp _ :: as => dispCount as + 1
  | _ :: as => dispCount as

/-- more dispatcher accesses than one complete round over all tasks plus the rest of a running round -/
def twoRounds (c : Cfg) : Nat := 10 * c.ts.length + 10

end Verif.Executor
