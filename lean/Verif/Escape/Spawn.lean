import Verif.Escape.Props

/-!
# C99: what is passed to a spawned task outlives it

`spawn` moves the inputs into the future of the task, which lives until the task ends, usually long after the caller has returned. `AsyncTaskExecutor<F: Future + 'static>` (`executor.rs:205`) makes the compiler refuse inputs that borrow from the
caller (`rtic/ui/task-reference-in-spawn.rs`), except that the code generated for tasks of `extern` blocks that return changes the type of the future with `transmute` (`module.rs:149-163`).
-/

namespace Verif.Escape
open Verif.Analysis (Ident)
open Verif.Signature

/-- Is the future passed to `exec.spawn` as the task made it, so that the bound `'static` applies to it? `module.rs:139-164` -/
def futureChecked (d : Def) : Bool :=
  if !d.isExtern then true
  else if d.isBottom then true
  else false

/-- Calls of functions that have not returned yet, the number of calls so far, and the tasks spawned and not ended with what their inputs borrow: data of a call, or nothing (`'static`). -/
structure SpSt where
  calls : List Nat := []
  next : Nat := 0
  tasks : List (Ident × List (Option Nat)) := []

/-- `borrows n`: the types of the inputs of task `n` contain a reference or a lifetime other than `'static`. -/
inductive SpStep (items : List SItem) (defs : List Def) (borrows : Ident → Bool) : SpSt → SpSt → Prop
  | call (s) : SpStep items defs borrows s { s with calls := s.next :: s.calls, next := s.next + 1 }
  | ret (s a) (h : a ∈ s.calls) : SpStep items defs borrows s { s with calls := s.calls.erase a }
  /-- `n::spawn(args)`, which compiles: references are to data that exist, types of inputs without lifetimes borrow nothing, and the bound on the future. -/
  | spawn (s ext f d args) (hf : FnOf items ext f) (hs : IsSoftware f) (hd : d ∈ defs) (hn : d.name = f.name) (hfree : ∀ x, (f.name, x) ∉ s.tasks) (hlive : ∀ a, some a ∈ args → a ∈ s.calls)
      (hty : borrows f.name = false → ∀ x ∈ args, x = none) (hb : futureChecked d = true → ∀ x ∈ args, x = none) :
      SpStep items defs borrows s { s with tasks := (f.name, args) :: s.tasks }
  | finish (s n args) (h : (n, args) ∈ s.tasks) : SpStep items defs borrows s { s with tasks := s.tasks.erase (n, args) }

inductive SpReach (items : List SItem) (defs : List Def) (borrows : Ident → Bool) : SpSt → Prop
  | nil : SpReach items defs borrows {}
  | step {s s'} : SpReach items defs borrows s → SpStep items defs borrows s s' → SpReach items defs borrows s'

/-- **C99** No task that has been spawned and has not ended refers to data of a call that has returned. Missing for the full claim: tasks of `extern` blocks that return and whose inputs contain references, see `C99_arguments_dangle_violated`. -/
theorem C99_arguments_outlive_task_partial {code : Ty → Analysis.Ty} {ds : List Ident} {items : List SItem} {app : Analysis.App} {defs : List Def} (h : parseApp code ds items = .ok (app, defs)) {borrows : Ident → Bool}
    (hb : ∀ f, FnOf items true f → IsSoftware f → ¬ Diverges f.output → borrows f.name = false) {s : SpSt} (hs : SpReach items defs borrows s) :
    ∀ n args a, (n, args) ∈ s.tasks → some a ∈ args → a ∈ s.calls := by
  obtain ⟨hnd, hk⟩ := parse_defs h
  suffices hinv : ∀ n args, (n, args) ∈ s.tasks → ∀ x ∈ args, x = none by
    intro n args a h1 h2
    cases hinv n args h1 _ h2
  induction hs with
  | nil => simp
  | step _ hst ih =>
    cases hst with
    | call => exact ih
    | ret a ha => exact ih
    | finish n args hm => exact fun n' args' h' => ih n' args' (List.mem_of_mem_erase h')
    | spawn ext f d args hf hsw hd hn _ hlive hty hbound =>
      intro n args' hm
      rcases List.mem_cons.mp hm with e | hm
      · cases e
        obtain ⟨d', hd', e1, e2, e3⟩ := hk ext f hf hsw
        have e := unique_def hnd hd hd' (hn.trans e1.symm)
        subst e
        by_cases hdv : Diverges f.output
        · refine hbound ?_
          unfold futureChecked
          rw [e3.mpr hdv]; cases d.isExtern <;> rfl
        · cases ext with
          | false => refine hbound ?_; unfold futureChecked; rw [e2]; rfl
          | true => exact hty (hb f hf hsw hdv)
      · exact ih n args' hm

/-- Task 30 of the module with a reference as input, in the module itself: it can be spawned (with static data). -/
def refFn (n : Ident) : Fn := { attrs := [at_ Kw.task], name := n, isAsync := true, inputs := [cx n, .typed 1 (.other 7)] }
def refItems : List SItem := [
  .struct [at_ Kw.shared] 20 (some []),
  .struct [at_ Kw.locals] 21 (some []),
  .fn { attrs := [at_ Kw.init], name := Kw.init, inputs := [cx Kw.init], output := .type (.tuple [named 20, named 21]) },
  .fn (refFn 30),
  .foreign { name := some Kw.rust } [.fn (refFn 32)]]

theorem ref_software (n : Ident) : IsSoftware (refFn n) := by
  have h : ∀ m, m ≠ Kw.task → Unmarked (refFn n).attrs m := by
    intro m hm a ha
    cases List.mem_singleton.mp ha
    rintro ⟨-, lc, e⟩
    simp [at_] at e
    exact hm e.2.symm
  refine ⟨h _ (by decide), h _ (by decide), [], ⟨[], at_ Kw.task, [], rfl, ⟨rfl, false, rfl⟩, by simp, rfl⟩, by simp⟩

theorem ref_parse : ∃ app defs, parseApp exCode [50] refItems = .ok (app, defs) ∧ ∃ p, expandApp exCode exTg 4 [50] refItems = .ok (p, defs) := by
  obtain ⟨app, defs, ha, -⟩ := okAnd_true (r := parseApp exCode [50] refItems) (q := fun _ _ => true) (by decide +kernel)
  exact ⟨app, defs, ha, accepted_true (by decide +kernel) ha⟩

example : ∃ app defs, parseApp exCode [50] refItems = .ok (app, defs) ∧ ∃ s, SpReach refItems defs (fun n => decide (n = 30)) s ∧ s.tasks = [(32, [none]), (30, [none])] ∧ s.calls = [0] := by
  obtain ⟨app, defs, ha, -⟩ := ref_parse
  obtain ⟨-, hk⟩ := parse_defs ha
  obtain ⟨d, hd, e, -⟩ := hk false (refFn 30) (show SItem.fn _ ∈ refItems by simp [refItems]) (ref_software 30)
  obtain ⟨d', hd', e', -⟩ := hk true (refFn 32) (show ∃ abi fs, SItem.foreign abi fs ∈ refItems ∧ FItem.fn _ ∈ fs from ⟨⟨some Kw.rust⟩, [.fn (refFn 32)], by simp [refItems], by simp⟩) (ref_software 32)
  have s1 := (SpReach.nil (items := refItems) (defs := defs) (borrows := fun n => decide (n = 30))).step (.call _)
  have s2 := s1.step (.spawn _ false (refFn 30) d [none] (show SItem.fn _ ∈ refItems by simp [refItems]) (ref_software 30) hd e (by simp) (by simp) (by simp) (by simp))
  have s3 := s2.step (.spawn _ true (refFn 32) d' [none] (show ∃ abi fs, SItem.foreign abi fs ∈ refItems ∧ FItem.fn _ ∈ fs from ⟨⟨some Kw.rust⟩, [.fn (refFn 32)], by simp [refItems], by simp⟩) (ref_software 32) hd' e' (by simp [refFn]) (by simp) (by simp) (by simp))
  exact ⟨app, defs, ha, _, s3, rfl, rfl⟩

/-- **C99 (violated)** The macro accepts a task of an `extern` block that returns and takes a reference, and nothing prevents spawning it with a reference to a variable of the caller: when the caller returns, the task refers to data that no longer exist. -/
theorem C99_arguments_dangle_violated : ∃ p app defs, expandApp exCode exTg 4 [50] refItems = .ok (p, defs) ∧ parseApp exCode [50] refItems = .ok (app, defs) ∧
    ∃ s, SpReach refItems defs (fun _ => true) s ∧ (32, [some 0]) ∈ s.tasks ∧ 0 ∉ s.calls := by
  obtain ⟨app, defs, ha, p, hp⟩ := ref_parse
  obtain ⟨-, hk⟩ := parse_defs ha
  have hf : FnOf refItems true (refFn 32) := ⟨⟨some Kw.rust⟩, [.fn (refFn 32)], by simp [refItems], by simp⟩
  obtain ⟨d, hd, e1, e2, e3⟩ := hk true (refFn 32) hf (ref_software 32)
  have s1 := (SpReach.nil (items := refItems) (defs := defs) (borrows := fun _ => true)).step (.call _)
  have s2 := s1.step (.spawn _ true (refFn 32) d [some 0] hf (ref_software 32) hd e1 (by simp) (by simp) (by intro h; cases h) (by
    intro h
    have hb : d.isBottom = false := by
      cases hh : d.isBottom with
      | false => rfl
      | true =>
        have := e3.mp hh
        cases this
    unfold futureChecked at h
    rw [e2, hb] at h
    cases h))
  have s3 := s2.step (.ret _ 0 (by simp))
  exact ⟨p, app, defs, hp, ha, _, s3, by simp [refFn], by simp⟩

end Verif.Escape
