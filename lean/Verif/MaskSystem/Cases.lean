import Verif.MaskSystem.Run

/-!
# C91: what happens without the conditions, and a case that meets them

The thread (handler 0) and the dispatcher of task 7 (handler 2, priority 2, interrupt 5) share resource 10, whose ceiling is 2. Handler 1 (priority 1) and handler 3 (priority 3, interrupt 6) are hardware tasks that share nothing; handler 3 spawns task 7. Handler 1 is bound to interrupt 40, to an exception, or to interrupt 4; in the last example handler 3 is bound to interrupt 40.
-/

namespace Verif.MaskSystem

open Verif

/-- `b`: the binding of handler 1, `n3`: the interrupt of handler 3; `irqs`, `masks`: what the macro makes of it -/
def caseCfg (b : Option Nat) (n3 : Nat) (irqs : SourceMask.Irqs) (masks : List SourceMask.Mask) : Cfg where
  sm :=
    { prio := fun h => if h = 1 then 1 else if h = 2 then 2 else if h = 3 then 3 else 0
      bind := fun h => if h = 1 then b else if h = 2 then some 5 else if h = 3 then some n3 else none
      uses := fun h r => r = 10 ∧ (h = 0 ∨ h = 2)
      ceil := fun r => if r = 10 then 2 else 0
      irqs := irqs
      masks := masks }
  tasks := fun h => if h = 2 then some [7] else none

/-- handler 1 is bound to interrupt 40: two registers -/
def twoRegs : Cfg := caseCfg (some 40) 6 [(1, 40), (2, 5), (3, 6)] [[0#32, 256#32], [32#32, 0#32], [64#32, 0#32]]
/-- handler 1 is bound to an exception -/
def exception : Cfg := caseCfg none 6 [(2, 5), (3, 6)] [[0#32], [32#32], [64#32]]
/-- handler 1 is bound to interrupt 4: one register, no exceptions -/
def oneReg : Cfg := caseCfg (some 4) 6 [(1, 4), (2, 5), (3, 6)] [[16#32], [32#32], [64#32]]

/-- all interrupts of the application are enabled -/
def allOn : SourceMask.Regs := fun i => if i = 0 then 112#32 else if i = 1 then 256#32 else 0#32

theorem case_wf {b : Option Nat} {n3 : Nat} {irqs : SourceMask.Irqs} {masks : List SourceMask.Mask} (h1 : SourceMask.genMasks irqs = some masks) (h2 : ∀ n, b = some n → (1, n) ∈ irqs) (h3 : (2, 5) ∈ irqs) (h4 : (3, n3) ∈ irqs) : SourceMask.WellFormed (caseCfg b n3 irqs masks).sm := by
  refine ⟨h1, fun t n hb hp => ?_, fun t r hu => ?_⟩
  · simp only [caseCfg] at hb hp ⊢
    by_cases e1 : t = 1
    · subst e1; simp at hb; subst hb; exact h2 _ rfl
    · by_cases e2 : t = 2
      · subst e2; simp at hb; subst hb; exact h3
      · by_cases e3 : t = 3
        · subst e3; simp at hb; subst hb; exact h4
        · simp [e1, e2, e3] at hb
  · obtain ⟨rfl, rfl | rfl⟩ := hu <;> simp [caseCfg]

def caseUses (h r : Nat) : Bool := decide (r = 10 ∧ (h = 0 ∨ h = 2))

theorem case_uses {b : Option Nat} {n3 : Nat} {irqs : SourceMask.Irqs} {masks : List SourceMask.Mask} : ∀ t r, caseUses t r = true → (caseCfg b n3 irqs masks).sm.uses t r := by
  intro t r h; simpa [caseUses, caseCfg] using h

theorem case_small {b : Option Nat} {n3 : Nat} {irqs : SourceMask.Irqs} {masks : List SourceMask.Mask} : Small (caseCfg b n3 irqs masks) 4 := by
  refine ⟨fun h hh => ?_, fun h hh => ?_⟩
  · have e1 : h ≠ 1 := by omega
    have e2 : h ≠ 2 := by omega
    have e3 : h ≠ 3 := by omega
    simp [caseCfg, e1, e2, e3]
  · have e2 : h ≠ 2 := by omega
    simp [caseCfg, e2]

/-- all interrupts enabled, nothing pending, nothing spawned -/
def caseStart : St := { m := SourceMask.start 0 allOn, pend := fun _ => false, ex := fun _ => Executor.init }

theorem case_start {c : Cfg} : Start c allOn caseStart := ⟨rfl, fun _ _ _ => ⟨[], [], by simp, rfl⟩, fun _ _ => rfl⟩
theorem case_idle {c : Cfg} : Idle c caseStart := fun _ _ _ => rfl

/-- the thread locks resource 10 up to some point (`k` accesses); handler 3 is started and calls `spawn` of task 7 -/
def before (k : Nat) : List Act := [.code (.lock 10)] ++ List.replicate k (.code .acc) ++ [.hw 3, .irq 3, .spawn 2 7 5]
/-- the rest of the call -/
def rest : List Act := [.call 2, .call 2, .call 2]
/-- handler 1 gets pending, handler 3 returns, handler 1 is started -/
def after : List Act := [.hw 1, .code .ret, .irq 1]

/-- is the list of events that of a call that succeeds -/
def isOk : List (Nat × Executor.Ev) → Bool
  | [(2, .ok 7 5)] => true
  | _ => false

theorem isOk_eq {l : List (Nat × Executor.Ev)} (h : isOk l = true) : l = [(2, .ok 7 5)] := by
  unfold isOk at h
  split at h
  · rfl
  · cases h

/-- the whole scenario; `Q` is checked in the state in which the call has returned -/
def scenario (c : Cfg) (k : Nat) (last : List Act) (Q : St → Bool) : Bool :=
  match run c caseUses 4 caseStart (before k) with
  | some (_, s0) =>
    match next c caseUses 4 s0 (.call 2) with
    | some (ev, s1) =>
      isOk ev &&
        match run c caseUses 4 s1 rest with
        | some (tr1, s2) =>
          tr1.isEmpty && decide ((s2.ex 2).pc (depth s0.m.stack) = .idle) && Q s2 &&
            match run c caseUses 4 s2 last with
            | some (tr2, _) => tr2.isEmpty
            | none => false
        | none => false
    | none => false
  | none => false

theorem scenario_spec {b : Option Nat} {n3 : Nat} {irqs : SourceMask.Irqs} {masks : List SourceMask.Mask} {k : Nat} {last : List Act} {Q : St → Bool} (h : scenario (caseCfg b n3 irqs masks) k last Q = true) :
    ∃ s0 s1 s2 s3 tr0, Exec (caseCfg b n3 irqs masks) caseStart (before k) tr0 s0 ∧ Step (caseCfg b n3 irqs masks) s0 (.call 2) [(2, .ok 7 5)] s1 ∧ Exec (caseCfg b n3 irqs masks) s1 rest [] s2 ∧
      (s2.ex 2).pc (depth s0.m.stack) = .idle ∧ Exec (caseCfg b n3 irqs masks) s2 last [] s3 ∧ Q s2 = true := by
  unfold scenario at h
  split at h
  · next tr0 s0 h0 =>
    obtain ⟨k0, i0⟩ := run_sound case_uses case_small _ case_idle h0
    split at h
    · next ev s1 h1 =>
      rw [Bool.and_eq_true] at h
      obtain ⟨hev, h⟩ := h
      have hs := next_sound case_uses case_small i0 h1
      have i1 := idle_step i0 hs
      split at h
      · next tr1 s2 h2 =>
        obtain ⟨k2, i2⟩ := run_sound case_uses case_small _ i1 h2
        simp only [Bool.and_eq_true, List.isEmpty_iff, decide_eq_true_eq] at h
        obtain ⟨⟨⟨e1, hp⟩, hq⟩, h⟩ := h
        split at h
        · next tr2 s3 h3 =>
          obtain ⟨k3, -⟩ := run_sound case_uses case_small _ i2 h3
          rw [List.isEmpty_iff] at h
          rw [isOk_eq hev] at hs
          subst e1 h
          exact ⟨s0, s1, s2, s3, tr0, k0, hs, k2, hp, k3, hq⟩
        · cases h
      · cases h
    · cases h
  · cases h

/-- **C91** (false if the interrupts are in two registers) There is an accepted application, all of whose interrupts are enabled, in which a task calls `spawn` of a task of priority 2, and after this call has returned, and before the spawned task is polled, a task of priority 1 is started. (The thread was interrupted between the two register
writes of a `lock`; the interrupt of the dispatcher is disabled already, that of the other task is not.) -/
theorem C91_inversion_violated : ∃ (c : Cfg) (e0 : SourceMask.Regs) (_ : SourceMask.WellFormed c.sm) (st s0 s1 s2 s3 : St) (as0 as1 as2 : List Act) (tr0 : List (Nat × Executor.Ev)) (d u a : Nat) (ts : List Nat) (h : Nat),
    c.sm.prio 0 = 0 ∧ (∀ t, 1 ≤ c.sm.prio t → ∃ n, c.sm.bind t = some n ∧ SourceMask.enabled e0 n = true) ∧ (∀ p q n, (p, n) ∈ c.sm.irqs → (q, n) ∈ c.sm.irqs → p = q) ∧
      Start c e0 st ∧ Exec c st as0 tr0 s0 ∧ c.tasks d = some ts ∧ u ∈ ts ∧ 1 ≤ c.sm.prio d ∧ Step c s0 (.call d) [(d, .ok u a)] s1 ∧ Exec c s1 as1 [] s2 ∧ (s2.ex d).pc (depth s0.m.stack) = .idle ∧ Exec c s2 as2 [] s3 ∧
      .irq h ∈ as2 ∧ c.sm.prio h < c.sm.prio d ∧ (∀ r, ¬ c.sm.uses h r) := by
  have hs : scenario twoRegs 4 after (fun _ => true) = true := by decide +kernel
  obtain ⟨s0, s1, s2, s3, tr0, h1, h2, h3, h4, h5, -⟩ := scenario_spec hs
  refine ⟨twoRegs, allOn, case_wf (by decide) (by simp) (by simp) (by simp), caseStart, s0, s1, s2, s3, _, _, _, tr0, 2, 7, 5, [7], 1, rfl, ?_, ?_, case_start, h1, rfl, by simp, by decide, h2, h3, h4, h5, by simp [after], by decide, ?_⟩
  · intro t ht
    simp only [twoRegs, caseCfg] at ht ⊢
    by_cases e1 : t = 1
    · subst e1; exact ⟨40, rfl, by decide⟩
    · by_cases e2 : t = 2
      · subst e2; exact ⟨5, rfl, by decide⟩
      · by_cases e3 : t = 3
        · subst e3; exact ⟨6, rfl, by decide⟩
        · simp [e1, e2, e3] at ht
  · intro p q n h1 h2
    simp only [twoRegs, caseCfg, List.mem_cons, Prod.mk.injEq, List.not_mem_nil, or_false] at h1 h2
    omega
  · rintro r ⟨-, h | h⟩ <;> cases h

/-- **C91** (false for tasks bound to exceptions) The same, on any number of interrupts, for a task of priority 1 that is bound to an exception: locks do not mask exceptions. -/
theorem C91_exception_violated : ∃ (c : Cfg) (e0 : SourceMask.Regs) (_ : SourceMask.WellFormed c.sm) (st s0 s1 s2 s3 : St) (as0 as1 as2 : List Act) (tr0 : List (Nat × Executor.Ev)) (d u a : Nat) (ts : List Nat) (h : Nat),
    c.sm.prio 0 = 0 ∧ SourceMask.nChunks c.sm.irqs = 1 ∧ (∀ t n, c.sm.bind t = some n → SourceMask.enabled e0 n = true) ∧ (∀ p q n, (p, n) ∈ c.sm.irqs → (q, n) ∈ c.sm.irqs → p = q) ∧
      Start c e0 st ∧ Exec c st as0 tr0 s0 ∧ c.tasks d = some ts ∧ u ∈ ts ∧ 1 ≤ c.sm.prio d ∧ Step c s0 (.call d) [(d, .ok u a)] s1 ∧ Exec c s1 as1 [] s2 ∧ (s2.ex d).pc (depth s0.m.stack) = .idle ∧ Exec c s2 as2 [] s3 ∧
      .irq h ∈ as2 ∧ c.sm.prio h < c.sm.prio d ∧ (∀ r, ¬ c.sm.uses h r) ∧ c.sm.bind h = none := by
  have hs : scenario exception 4 after (fun _ => true) = true := by decide +kernel
  obtain ⟨s0, s1, s2, s3, tr0, h1, h2, h3, h4, h5, -⟩ := scenario_spec hs
  refine ⟨exception, allOn, case_wf (by decide) (by simp) (by simp) (by simp), caseStart, s0, s1, s2, s3, _, _, _, tr0, 2, 7, 5, [7], 1, rfl, rfl, ?_, ?_, case_start, h1, rfl, by simp, by decide, h2, h3, h4, h5, by simp [after], by decide, ?_, rfl⟩
  · intro t n ht
    simp only [exception, caseCfg] at ht
    by_cases e1 : t = 1
    · subst e1; simp at ht
    · by_cases e2 : t = 2
      · subst e2; simp at ht; subst ht; decide
      · by_cases e3 : t = 3
        · subst e3; simp at ht; subst ht; decide
        · simp [e1, e2, e3] at ht
  · intro p q n h1 h2
    simp only [exception, caseCfg, List.mem_cons, Prod.mk.injEq, List.not_mem_nil, or_false] at h1 h2
    omega
  · rintro r ⟨-, h | h⟩ <;> cases h

/-! ## Non-vacuity -/

theorem oneReg_plain : SourceMask.Plain oneReg.sm allOn 2 := by
  refine ⟨fun _ => ⟨5, rfl, by decide⟩, ?_, ?_, 3, ?_⟩
  · intro t ht hlt
    simp only [oneReg, caseCfg] at ht hlt ⊢
    by_cases e1 : t = 1
    · subst e1; exact ⟨4, 5, rfl, rfl, rfl⟩
    · by_cases e2 : t = 2
      · subst e2; simp at hlt
      · by_cases e3 : t = 3
        · subst e3; simp at hlt
        · simp [e1, e2, e3] at ht
  · intro p q n h1 h2
    simp only [oneReg, caseCfg, List.mem_cons, Prod.mk.injEq, List.not_mem_nil, or_false] at h1 h2
    omega
  · intro t
    simp only [oneReg, caseCfg]
    (repeat' split) <;> omega

/-- handler 3, which is more urgent than the dispatcher, is bound to interrupt 40: two registers -/
def urgentReg : Cfg := caseCfg (some 4) 40 [(1, 4), (2, 5), (3, 40)] [[16#32, 0#32], [32#32, 0#32], [0#32, 256#32]]

theorem urgentReg_plain : SourceMask.Plain urgentReg.sm allOn 2 := by
  refine ⟨fun _ => ⟨5, rfl, by decide⟩, ?_, ?_, oneReg_plain.bounded⟩
  · intro t ht hlt
    obtain ⟨m, n, h1, h2, h3⟩ := oneReg_plain.same t ht hlt
    refine ⟨m, n, ?_, h2, h3⟩
    have : t ≠ 3 := by rintro rfl; exact absurd hlt (by decide)
    simp only [oneReg, urgentReg, caseCfg, this, if_false] at h1 ⊢
    exact h1
  · intro p q n h1 h2
    simp only [urgentReg, caseCfg, List.mem_cons, Prod.mk.injEq, List.not_mem_nil, or_false] at h1 h2
    omega

/-- the most urgent handler may be an exception: the conditions are met for dispatcher 2 if handler 3 is bound to none of the interrupts of the application -/
example : SourceMask.Plain { oneReg.sm with bind := fun t => if t = 3 then none else oneReg.sm.bind t, irqs := [(1, 4), (2, 5)], masks := [[16#32], [32#32], [0#32]] } allOn 2 ∧
    SourceMask.WellFormed { oneReg.sm with bind := fun t => if t = 3 then none else oneReg.sm.bind t, irqs := [(1, 4), (2, 5)], masks := [[16#32], [32#32], [0#32]] } := by
  refine ⟨⟨oneReg_plain.self, ?_, ?_, oneReg_plain.bounded⟩, by decide, ?_, ?_⟩
  · intro t ht hlt
    have e3 : t ≠ 3 := by rintro rfl; exact absurd hlt (by decide)
    simp only [if_neg e3]
    exact oneReg_plain.same t ht hlt
  · intro p q n h1 h2
    simp only [List.mem_cons, Prod.mk.injEq, List.not_mem_nil, or_false] at h1 h2
    omega
  · intro t n hb hp
    simp only [oneReg, caseCfg] at hb hp ⊢
    by_cases e1 : t = 1
    · subst e1; simp at hb; subst hb; decide
    · by_cases e2 : t = 2
      · subst e2; simp at hb; subst hb; decide
      · by_cases e3 : t = 3
        · subst e3; simp at hb
        · simp [e1, e2, e3] at hb
  · exact (case_wf (b := some 4) (n3 := 6) (irqs := [(1, 4), (2, 5), (3, 6)]) (masks := [[16#32], [32#32], [64#32]]) (by decide) (by simp) (by simp) (by simp)).ceil

/-- The hypotheses of the theorems above are met: the thread is inside the closure of its lock when handler 3 spawns task 7 (so the dispatcher has to wait), and handler 1 gets pending; handler 3 returns, the thread goes on, and when it releases the lock, the dispatcher is started and not handler 1. -/
example : SourceMask.WellFormed oneReg.sm ∧ SourceMask.Plain oneReg.sm allOn 2 ∧ Start oneReg allOn caseStart ∧
    ∃ s0 s1 s2 s3 tr0 as2, Exec oneReg caseStart (before 4) tr0 s0 ∧ Step oneReg s0 (.call 2) [(2, .ok 7 5)] s1 ∧ Exec oneReg s1 rest [] s2 ∧ (s2.ex 2).pc (depth s0.m.stack) = .idle ∧ Exec oneReg s2 as2 [] s3 ∧
      as2 = [.hw 1, .code .ret, .code .unlock, .code .acc, .irq 2] ∧ SourceMask.BlockedP oneReg.sm 2 s2.m.stack := by
  have hs : scenario oneReg 4 [.hw 1, .code .ret, .code .unlock, .code .acc, .irq 2] (fun s => match s.m.stack with | [.body 3, .lk 10 _, .body 0] => true | _ => false) = true := by decide +kernel
  obtain ⟨s0, s1, s2, s3, tr0, h1, h2, h3, h4, h5, h6⟩ := scenario_spec hs
  refine ⟨case_wf (by decide) (by simp) (by simp) (by simp), oneReg_plain, case_start, s0, s1, s2, s3, tr0, _, h1, h2, h3, h4, h5, rfl, ?_⟩
  split at h6
  · next o hst => rw [hst]; exact ⟨.lk 10 o, [.body 0], List.suffix_cons _ _, by show 2 ≤ 2; omega, 0, rfl, by decide⟩
  · cases h6

/-- The same with two registers: handler 3 (interrupt 40) preempts the thread between the two register writes of its lock, the first of which has disabled the interrupts of handlers 1 and 2. -/
example : SourceMask.WellFormed urgentReg.sm ∧ SourceMask.nChunks urgentReg.sm.irqs = 2 ∧ SourceMask.Plain urgentReg.sm allOn 2 ∧ Start urgentReg allOn caseStart ∧
    ∃ s0 s1 s2 s3 tr0 as2, Exec urgentReg caseStart (before 4) tr0 s0 ∧ Step urgentReg s0 (.call 2) [(2, .ok 7 5)] s1 ∧ Exec urgentReg s1 rest [] s2 ∧ (s2.ex 2).pc (depth s0.m.stack) = .idle ∧ Exec urgentReg s2 as2 [] s3 ∧
      as2 = [.hw 1, .code .ret, .code .acc, .code .acc, .code .unlock, .code .acc, .irq 2] ∧ SourceMask.BlockedP urgentReg.sm 2 s2.m.stack := by
  have hs : scenario urgentReg 4 [.hw 1, .code .ret, .code .acc, .code .acc, .code .unlock, .code .acc, .irq 2] (fun s => match s.m.stack with | [.body 3, .cl 10 1 _, .body 0] => true | _ => false) = true := by decide +kernel
  obtain ⟨s0, s1, s2, s3, tr0, h1, h2, h3, h4, h5, h6⟩ := scenario_spec hs
  refine ⟨case_wf (by decide) (by simp) (by simp) (by simp), by decide, urgentReg_plain, case_start, s0, s1, s2, s3, tr0, _, h1, h2, h3, h4, h5, rfl, ?_⟩
  split at h6
  · next o hst => rw [hst]; exact ⟨.cl 10 1 o, [.body 0], List.suffix_cons _ _, ⟨⟨5, rfl, by decide⟩, by show 2 ≤ 2; omega⟩, 0, rfl, by decide⟩
  · cases h6

/-- A lower-priority handler is not started first: handler 1 cannot be taken after the lock has been released while the dispatcher is pending. -/
example : scenario oneReg 4 [.hw 1, .code .ret, .code .unlock, .code .acc, .irq 1] (fun _ => true) = false := by decide +kernel

/-- the thread is inside its call of `spawn`; handler 3 preempts it and calls `spawn` of the same task, and returns; the thread's call goes on; the dispatcher is taken and polls the task -/
def nestedCalls : List Act :=
  [.spawn 2 7 5, .call 2, .hw 3, .irq 3, .spawn 2 7 6, .call 2, .code .ret, .call 2, .call 2, .call 2, .irq 2, .disp 2 true, .disp 2 true, .disp 2 true]

/-- Calls nest: a handler that preempts a caller of `spawn` in the middle of the call can itself call `spawn` of the same task. -/
example : ∃ s tr, Exec oneReg caseStart nestedCalls tr s ∧ tr = [(2, .ok 7 5), (2, .err 7 6), (2, .started 7 5), (2, .polled 7)] := by
  have hs : (match run oneReg caseUses 4 caseStart nestedCalls with | some (tr, _) => decide (tr = [(2, .ok 7 5), (2, .err 7 6), (2, .started 7 5), (2, .polled 7)]) | none => false) = true := by decide +kernel
  split at hs
  · next tr s h => exact ⟨s, tr, (run_sound case_uses case_small _ case_idle h).1, of_decide_eq_true hs⟩
  · cases hs

end Verif.MaskSystem
