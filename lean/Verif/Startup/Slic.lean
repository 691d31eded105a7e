import Verif.Startup.Props
import Verif.Analysis.TargetProps

/-!
# Startup with SLIC

The generated `main` calls `riscv_slic::disable`, `set_priority` and `enable` (`rtic/src/export/slic.rs:1-17`, `rtic-macros/src/codegen/bindings/riscv_slic.rs:106-123`). `riscv_slic` itself is trusted: while it is disabled no software interrupt is delivered (the flag `masked` of `Verif.Startup`).
-/

namespace Verif.Startup

open Verif.Analysis

variable {fresh : Nat → Ident} {bk : Bool} {raw : Raw} {sp : SlicProgram}

/-- **C53** (SLIC) Whenever code of a task runs: `init` has returned, and every resource that any task has in its lists has been stored. -/
theorem C53_slic_after_init (hf : ∀ i j, fresh i = fresh j → i = j) (hb : ∀ t i q args, ¬ TaskIs raw t (.hardware (fresh i)) q args) (h : expandSlic fresh bk raw = .ok sp)
    {s s' : St} (hr : Reach .riscv sp.code s) {t : Ident} {o : Option (Ident × Nat)} (hs : Step .riscv sp.code s (.run t o) s') :
    s.initReturned = true ∧ s.inInit = false ∧ (∀ t' q r a, UsesShared raw t' q r a → r ∈ s.wroteShared) ∧ ∀ t' q r, UsesLocal raw t' q r → r ∈ s.wroteLocal := by
  obtain ⟨-, n, he, -⟩ := C72_slic_as_explicit hf hb h
  obtain ⟨h1, h2, h3, h4⟩ := C53_tasks_run_after_init he hr hs
  refine ⟨h1, h2, ?_, ?_⟩
  · rintro t' q r a ⟨k, args, l, ht, hl⟩
    exact h3 t' q r a ⟨k, args, l, taskIs_with.mpr ht, hl⟩
  · rintro t' q r ⟨k, args, l, ht, hl⟩
    exact h4 t' q r ⟨k, args, l, taskIs_with.mpr ht, hl⟩

/-- **C53** (SLIC) While `init` runs software interrupts are disabled and no code of a task runs. -/
theorem C53_slic_masked_during_init (hf : ∀ i j, fresh i = fresh j → i = j) (hb : ∀ t i q args, ¬ TaskIs raw t (.hardware (fresh i)) q args) (h : expandSlic fresh bk raw = .ok sp)
    {s : St} (hr : Reach .riscv sp.code s) (hin : s.inInit = true) : s.masked = true ∧ ∀ t o s', ¬ Step .riscv sp.code s (.run t o) s' := by
  obtain ⟨-, n, he, -⟩ := C72_slic_as_explicit hf hb h
  exact C53_masked_during_init he hr hin

/-- **C53** (SLIC) After startup nothing stands in the way of any task. -/
theorem C53_slic_every_task_runs (hf : ∀ i j, fresh i = fresh j → i = j) (hb : ∀ t i q args, ¬ TaskIs raw t (.hardware (fresh i)) q args) (h : expandSlic fresh bk raw = .ok sp)
    {s : St} (hr : Reach .riscv sp.code s) (hdone : s.todo = []) {t : Ident} {k : Kind} {q : Nat} {args : List TaskArg} (ht : TaskIs raw t k q args) :
    (∀ v, k = .hardware v → v ∈ s.pending → Step .riscv sp.code s (.run t (some (v, q))) s) ∧ (k = .idle → Step .riscv sp.code s (.run t none) s) ∧
    (k = .software → ∃ o, (t, o) ∈ sp.code.pends ∧ ((o = none ∧ q = 0 ∧ Step .riscv sp.code s (.run t none) s) ∨ ∃ v, o = some v ∧ 0 < q ∧ (v ∈ s.pending → Step .riscv sp.code s (.run t (some (v, q))) s))) := by
  obtain ⟨-, n, he, -⟩ := C72_slic_as_explicit hf hb h
  exact C53_every_task_runs he hr hdone (taskIs_with.mpr ht)

/-- an accepted application; the hypotheses on the names are those of the example in `Verif.Analysis.TargetProps`; before the first statement of `main` an interrupt is pending, and startup runs -/
example : ∃ sp s, expandSlic (1000 + ·) true (exRaw.withDispatchers []) = .ok sp ∧ Reach .riscv sp.code s ∧ s.masked = true ∧ 60 ∈ s.pending := by
  cases h : expandSlic (1000 + ·) true (exRaw.withDispatchers []) with
  | error e =>
    have : (match expandSlic (1000 + ·) true (exRaw.withDispatchers []) with | .ok _ => true | .error _ => false) = true := by decide +kernel
    rw [h] at this; cases this
  | ok sp =>
    have : (match expandSlic (1000 + ·) true (exRaw.withDispatchers []) with | .ok sp => decide (sp.code.main.head? = some .disableInterrupts) | .error _ => false) = true := by decide +kernel
    rw [h] at this
    simp only [decide_eq_true_eq, List.head?_eq_some_iff] at this
    obtain ⟨l, hl⟩ := this
    exact ⟨sp, _, rfl, ((Reach.start.step (.pend 60 (by intro h; cases h))).step (.exec _ _ hl rfl)), rfl, by simp [execStmt]⟩

end Verif.Startup
