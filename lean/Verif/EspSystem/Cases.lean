import Verif.EspSystem.Run

/-!
# C92: cases that meet the hypotheses

The thread (handler 0) and the dispatcher of task 7 (handler 2, priority 2) share resource 10, whose ceiling is 2. Handler 1 (priority 1) and handler 3 (priority 3) are hardware tasks that share nothing; handler 3 spawns task 7.
-/

namespace Verif.EspSystem

open Verif

def caseCfg : Cfg where
  hw :=
    { prio := fun h => if h = 1 then 1 else if h = 2 then 2 else if h = 3 then 3 else 0
      uses := fun h r => r = 10 ∧ (h = 0 ∨ h = 2)
      ceil := fun r => if r = 10 then 2 else 0 }
  tasks := fun h => if h = 2 then some [7] else none

theorem case_wf : Esp32.WellFormed caseCfg.hw := by
  refine ⟨fun t => ?_, fun t r hu => ?_, fun r => ?_⟩
  · simp only [caseCfg]; (repeat' split) <;> omega
  · obtain ⟨rfl, rfl | rfl⟩ := hu <;> simp [caseCfg]
  · simp only [caseCfg]; split <;> omega

def caseUses (h r : Nat) : Bool := decide (r = 10 ∧ (h = 0 ∨ h = 2))

theorem case_uses : ∀ t r, caseUses t r = true → caseCfg.hw.uses t r := by
  intro t r h; simpa [caseUses, caseCfg] using h

theorem case_small : Small caseCfg 4 := by
  refine ⟨fun h hh => ?_, fun h hh => ?_⟩
  · have e1 : h ≠ 1 := by omega
    have e2 : h ≠ 2 := by omega
    have e3 : h ≠ 3 := by omega
    simp [caseCfg, e1, e2, e3]
  · have e2 : h ≠ 2 := by omega
    simp [caseCfg, e2]

/-- nothing pending, nothing spawned -/
def caseStart : St := { m := Esp32.start 0 1, pend := fun _ => false, ex := fun _ => Executor.init }

theorem case_start : Start caseCfg 1 caseStart := ⟨rfl, fun _ _ _ => ⟨[], [], by simp, rfl⟩, fun _ _ => rfl⟩
theorem case_idle : Idle caseCfg caseStart := fun _ _ _ => rfl

/-- is the list of events that of a call that succeeds -/
def isOk : List (Nat × Executor.Ev) → Bool
  | [(2, .ok 7 5)] => true
  | _ => false

theorem isOk_eq {l : List (Nat × Executor.Ev)} (h : isOk l = true) : l = [(2, .ok 7 5)] := by
  unfold isOk at h
  split at h
  · rfl
  · cases h

/-- the whole scenario: `as0`, the access that decides that the call succeeds, `as1`, the call has returned; `Q` is checked in this state; then `as2` -/
def scenario (as0 as1 as2 : List Act) (Q : St → Bool) : Bool :=
  match run caseCfg caseUses 4 caseStart as0 with
  | some (_, s0) =>
    match next caseCfg caseUses 4 s0 (.call 2) with
    | some (ev, s1) =>
      isOk ev &&
        match run caseCfg caseUses 4 s1 as1 with
        | some (tr1, s2) =>
          tr1.isEmpty && decide ((s2.ex 2).pc (depth s0.m.stack) = .idle) && Q s2 &&
            match run caseCfg caseUses 4 s2 as2 with
            | some (tr2, _) => tr2.isEmpty
            | none => false
        | none => false
    | none => false
  | none => false

theorem scenario_spec {as0 as1 as2 : List Act} {Q : St → Bool} (h : scenario as0 as1 as2 Q = true) :
    ∃ s0 s1 s2 s3 tr0, Exec caseCfg caseStart as0 tr0 s0 ∧ Step caseCfg s0 (.call 2) [(2, .ok 7 5)] s1 ∧ Exec caseCfg s1 as1 [] s2 ∧ (s2.ex 2).pc (depth s0.m.stack) = .idle ∧ Exec caseCfg s2 as2 [] s3 ∧ Q s2 = true := by
  unfold scenario at h
  split at h
  · next tr0 s0 h0 =>
    obtain ⟨k0, i0⟩ := run_sound case_uses case_small _ case_idle h0
    split at h
    · next ev s1 h1 =>
      rw [Bool.and_eq_true] at h
      obtain ⟨hev, h⟩ := h
      have hs := next_sound case_uses case_small i0 h1
      have i1 := idle_step i0 hs
      split at h
      · next tr1 s2 h2 =>
        obtain ⟨k2, i2⟩ := run_sound case_uses case_small _ i1 h2
        simp only [Bool.and_eq_true, List.isEmpty_iff, decide_eq_true_eq] at h
        obtain ⟨⟨⟨e1, hp⟩, hq⟩, h⟩ := h
        split at h
        · next tr2 s3 h3 =>
          obtain ⟨k3, -⟩ := run_sound case_uses case_small _ i2 h3
          rw [List.isEmpty_iff] at h
          rw [isOk_eq hev] at hs
          subst e1 h
          exact ⟨s0, s1, s2, s3, tr0, k0, hs, k2, hp, k3, hq⟩
        · cases h
      · cases h
    · cases h
  · cases h

/-- The thread locks resource 10; handler 3 is started and calls `spawn` of task 7. -/
def before : List Act := [.code (.lock 10), .code .raise, .hw 3, .irq 3, .unhw 3, .code .readInitial, .spawn 2 7 5]
/-- the rest of the call -/
def rest : List Act := [.call 2, .call 2, .call 2]

/-- The hypotheses of `C92_spawned_preempts` are met: the thread is inside the closure of its lock when handler 3 spawns task 7 (so the dispatcher has to wait), and handler 1 gets pending; handler 3 returns, the thread goes on, and when it releases the lock, the dispatcher is started and not handler 1;
it clears its line and calls `run`. -/
example : Esp32.WellFormed caseCfg.hw ∧ Start caseCfg 1 caseStart ∧
    ∃ s0 s1 s2 s3 tr0 as2, Exec caseCfg caseStart before tr0 s0 ∧ Step caseCfg s0 (.call 2) [(2, .ok 7 5)] s1 ∧ Exec caseCfg s1 rest [] s2 ∧ (s2.ex 2).pc (depth s0.m.stack) = .idle ∧ Exec caseCfg s2 as2 [] s3 ∧
      as2 = [.hw 1, .code .finish, .code .ret, .code .unlock, .irq 2, .unpend 2, .code .readInitial, .disp 2 false] ∧ Esp32.Blocked caseCfg.hw 2 s2.m.stack := by
  have hs : scenario before rest [.hw 1, .code .finish, .code .ret, .code .unlock, .irq 2, .unpend 2, .code .readInitial, .disp 2 false] (fun s => match s.m.stack with | [.body 3 _ _, .lk 10 _, .body 0 _ _] => true | _ => false) = true := by decide +kernel
  obtain ⟨s0, s1, s2, s3, tr0, h1, h2, h3, h4, h5, h6⟩ := scenario_spec hs
  refine ⟨case_wf, case_start, s0, s1, s2, s3, tr0, _, h1, h2, h3, h4, h5, rfl, ?_⟩
  split at h6
  · next p i o p' i' hst => rw [hst]; exact ⟨.lk 10 o, [.body 0 p' i'], List.suffix_cons _ _, by show 2 ≤ 2; omega, 0, rfl, by decide⟩
  · cases h6

/-- A lower-priority handler is not started first: handler 1 cannot be taken after the lock has been released while the dispatcher is pending. -/
example : scenario before rest [.hw 1, .code .finish, .code .ret, .code .unlock, .irq 1] (fun _ => true) = false := by decide +kernel

/-- Calls nest: the thread's call of `spawn` has allocated task 7, and is preempted by handler 3, whose `spawn` of the same task fails; the thread's call goes on and ends; the dispatcher is taken, and preempted before it has cleared its line; it goes on and polls the task with the arguments of the thread's call. -/
example : ∃ s0 s1 s2 tr0, Exec caseCfg caseStart [.spawn 2 7 5] tr0 s0 ∧ Step caseCfg s0 (.call 2) [(2, .ok 7 5)] s1 ∧
    Exec caseCfg s1 [.hw 3, .irq 3, .unhw 3, .code .readInitial, .spawn 2 7 6, .call 2, .code .finish, .code .ret, .call 2, .call 2, .call 2, .irq 2, .hw 3, .irq 3, .unhw 3, .code .readInitial, .code .finish, .code .ret, .unpend 2, .code .readInitial, .disp 2 true, .disp 2 true, .disp 2 true] [(2, .err 7 6), (2, .started 7 5), (2, .polled 7)] s2 := by
  have hs : (match run caseCfg caseUses 4 caseStart [.spawn 2 7 5] with
    | some (_, s0) =>
      match next caseCfg caseUses 4 s0 (.call 2) with
      | some (ev, s1) =>
        isOk ev && (match run caseCfg caseUses 4 s1 [.hw 3, .irq 3, .unhw 3, .code .readInitial, .spawn 2 7 6, .call 2, .code .finish, .code .ret, .call 2, .call 2, .call 2, .irq 2, .hw 3, .irq 3, .unhw 3, .code .readInitial, .code .finish, .code .ret, .unpend 2, .code .readInitial, .disp 2 true, .disp 2 true, .disp 2 true] with
          | some (tr, _) => decide (tr = [(2, .err 7 6), (2, .started 7 5), (2, .polled 7)])
          | none => false)
      | none => false
    | none => false) = true := by decide +kernel
  split at hs
  · next tr0 s0 h0 =>
    obtain ⟨k0, i0⟩ := run_sound case_uses case_small _ case_idle h0
    split at hs
    · next ev s1 h1 =>
      rw [Bool.and_eq_true] at hs
      obtain ⟨hev, hs⟩ := hs
      have hst := next_sound case_uses case_small i0 h1
      rw [isOk_eq hev] at hst
      split at hs
      · next tr s2 h2 =>
        obtain ⟨k2, -⟩ := run_sound case_uses case_small _ (idle_step i0 hst) h2
        rw [of_decide_eq_true hs] at k2
        exact ⟨s0, s1, s2, tr0, k0, hst, k2⟩
      · cases hs
    · cases hs
  · cases hs

end Verif.EspSystem
