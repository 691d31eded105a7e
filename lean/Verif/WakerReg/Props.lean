import Verif.WakerReg.Model

/-! # C54: the waker registration -/

namespace Verif.WakerReg

variable {W : Type} [DecidableEq W]

/-- Specification, from the history alone (newest operation first): the waker that is owed a wake-up, i.e. the argument of the
most recent operation if that is a registration. -/
def owed : List (Op W) → Option W
  | .register w :: _ => some w
  | _ => none

/-- What an operation must wake after a history (newest first): `wake` wakes the owed waker, a registration of another waker
wakes the owed one, a registration of the same waker wakes nobody. -/
def mustWake (hist : List (Op W)) (op : Op W) : List W :=
  match owed hist with
  | none => []
  | some w => if op = .register w then [] else [w]

/-- All wake-ups required over a sequence of operations that follows the history `hist`. -/
def required (hist : List (Op W)) : List (Op W) → List (List W)
  | [] => []
  | op :: ops => mustWake hist op :: required (op :: hist) ops

theorem run_required (ops : List (Op W)) : ∀ hist : List (Op W),
    run (owed hist) ops = (owed (ops.reverse ++ hist), required hist ops) := by
  induction ops with
  | nil => intro hist; simp [run, required]
  | cons op ops ih =>
    intro hist
    have h1 : (step (owed hist) op).1 = owed (op :: hist) := by
      cases op with
      | wake => simp only [step, wake]; cases owed hist <;> rfl
      | register w =>
        simp only [step, register]
        cases owed hist with
        | none => rfl
        | some w2 => simp only; split <;> simp_all [owed]
    have h2 : (step (owed hist) op).2 = mustWake hist op := by
      cases op with
      | wake => simp only [step, wake, mustWake]; cases owed hist <;> simp
      | register w =>
        simp only [step, register, mustWake]
        cases owed hist with
        | none => rfl
        | some w2 =>
          simp only [Op.register.injEq]
          by_cases h : w2 = w
          · simp [h]
          · simp [h, Ne.symm h]
    simp only [run, h1, h2, ih, required, List.reverse_cons, List.append_assoc, List.cons_append, List.nil_append]

/-- **C54** For every sequence of `register` and `wake` operations on a new registration, each operation wakes exactly what the
specification requires: `wake` wakes the waker registered last (once: a further `wake` wakes nobody), registering a different
waker wakes the one it replaces, and nothing else is ever woken. -/
theorem C54_wakes_exactly (ops : List (Op W)) : (run (none : Option W) ops).2 = required [] ops := by
  have := run_required ops ([] : List (Op W))
  simp only [owed] at this
  rw [this]

theorem run_append (c : Option W) (xs ys : List (Op W)) :
    run c (xs ++ ys) = ((run (run c xs).1 ys).1, (run c xs).2 ++ (run (run c xs).1 ys).2) := by
  induction xs generalizing c with
  | nil => simp [run]
  | cons x xs ih => simp [run, ih]

theorem run_same (w : W) (k : Nat) : run (some w) (List.replicate k (.register w)) =
    (some w, List.replicate k []) := by
  induction k with
  | zero => rfl
  | succ k ih => simp [List.replicate_succ, run, step, register, ih]

/-- **C54** No registered waker is dropped silently: whatever happened before, after `register(w)` (repeated any number of
times) the first other operation, be it `wake` or the registration of another waker, wakes `w`, exactly once. -/
theorem C54_registered_is_woken (pre : List (Op W)) (w : W) (k : Nat) (op : Op W) (hop : op ≠ .register w) :
    (run (none : Option W) (pre ++ .register w :: List.replicate k (.register w) ++ [op])).2.getLast? = some [w] := by
  have hreg : (step (run (none : Option W) pre).1 (.register w)).1 = some w := by
    simp only [step, register]
    cases (run (none : Option W) pre).1 with
    | none => rfl
    | some w2 => simp only; split <;> simp_all
  rw [List.append_assoc, run_append]
  simp only [List.cons_append, run, hreg, run_append, run_same]
  have : (step (some w) op).2 = [w] := by
    cases op with
    | wake => rfl
    | register w' =>
      have : w ≠ w' := by rintro rfl; exact hop rfl
      simp [step, register, this]
  simp only [this]
  rw [← List.cons_append, ← List.append_assoc, List.getLast?_concat]

/-- Non-vacuity: waker 1 replaced by 2 (1 woken), 2 registered again, woken once, second wake does nothing. -/
example : (run (none : Option Nat) [.register 1, .register 2, .register 2, .wake, .wake]).2
    = [[], [1], [], [2], []] := by decide
example : (run (none : Option Nat) ([.register 1] ++ .register 2 :: List.replicate 1 (.register 2) ++ [.wake])).2.getLast?
    = some [2] := C54_registered_is_woken _ _ _ _ (by decide)

end Verif.WakerReg
