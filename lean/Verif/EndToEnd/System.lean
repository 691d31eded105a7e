import Verif.EndToEnd.Blocking
import Verif.System.Props

/-!
# C82 for accepted applications: a spawned task runs before any task of lower priority
-/

namespace Verif.EndToEnd

open Verif.Analysis

variable {tg : Target} {bits : Nat} {raw : Raw} {p : Program}

/-- the vector of a handler; none for the thread -/
def vecOf : Nat → Option Ident
  | 0 => none
  | v + 1 => some v

/-- the software tasks polled by a handler, in the order of the generated code, `codegen/async_dispatchers.rs:41-91` -/
def polledBy (p : Program) (n : Nat) : Option (List Ident) :=
  (p.dispatchers.find? fun x => x.1 = vecOf n).map fun x => x.2.2

/-- The whole system of `Verif.System` for a generated program. -/
def sysCfg (bits : Nat) (p : Program) : System.Cfg where
  srp := appCfg bits p
  tasks := polledBy p

/-- a handler polls exactly the software tasks it executes -/
theorem polledBy_of_runs (h : expand tg bits raw = .ok p) {n : Nat} {t : Ident} {q : Nat} {args : List TaskArg} (ht : TaskIs raw t .software q args) (hr : Runs p n t) :
    ∃ ts, polledBy p n = some ts ∧ t ∈ ts := by
  obtain ⟨-, h2, h3, h4, h5⟩ := C44_one_dispatcher_per_priority h
  -- the dispatcher of `n` that polls `t`
  have hex : ∃ q' ts, (vecOf n, q', ts) ∈ p.dispatchers ∧ t ∈ ts := by
    cases n with
    | zero =>
      rcases hr with hi | ⟨q', ts, hd, hm⟩
      · exfalso
        obtain ⟨app, base, an, he⟩ := expand_ok h
        have hg := codegen_ok he.codegen
        rw [hg.main] at hi
        have : ∃ i, app.idle = some i ∧ i.name = t := by
          simp only [mainStmts, preInitEnable, lastStmt] at hi
          simp at hi
          split at hi
          · rename_i i hi'; exact ⟨i, hi', by simp at hi; exact hi.symm⟩
          · split at hi <;> simp at hi
        obtain ⟨i, hi', rfl⟩ := this
        obtain ⟨args', ha, -⟩ := he.says.idle _ hi'
        cases (task_unique h ha ht).1
      · exact ⟨q', ts, hd, hm⟩
    | succ v =>
      rcases hr with ⟨q', hw⟩ | ⟨q', ts, hd, hm⟩
      · obtain ⟨args', ha⟩ := ((C44_dispatchers_not_hardware h).1 _ _ _).mp hw
        cases (task_unique h ha ht).1
      · exact ⟨q', ts, hd, hm⟩
  obtain ⟨q', ts, hd, hm⟩ := hex
  cases hf : p.dispatchers.find? (fun x => x.1 = vecOf n) with
  | none => exact absurd (List.find?_eq_none.mp hf _ hd) (by simp)
  | some x =>
    obtain ⟨o, q'', ts'⟩ := x
    have hx := List.find?_some hf
    have hxm := List.mem_of_find?_eq_some hf
    simp only [decide_eq_true_eq] at hx
    subst hx
    have hqq : q' = q'' := by
      cases n with
      | zero => rw [h5 _ _ hd, h5 _ _ hxm]
      | succ v => exact h3 _ _ _ _ _ hd hxm
    subst hqq
    obtain ⟨-, rfl⟩ := h2 _ _ _ _ _ hd hxm
    exact ⟨ts, by simp [polledBy, hf], hm⟩

/-- what the theorems below say of the tasks of the application: from `s2` to `s3` no task of a lower priority than `q` was started, and one that runs next is inside a critical section it had entered before `s2`, and that blocks priority `q` -/
structure TaskPreempts (raw : Raw) (bits : Nat) (p : Program) (q : Nat) (s2 : System.St) (as : List System.Act) (s3 : System.St) : Prop where
  starts : ∀ n' t' k' q' args', .irq n' ∈ as → Runs p n' t' → TaskIs raw t' k' q' args' → q ≤ q'
  next : ∀ a ev s4 n' t' k' q' args', System.Step (sysCfg bits p) s3 a ev s4 → a.own = true → Srp.top s3.m.stack = some n' → Runs p n' t' → TaskIs raw t' k' q' args' → q' < q →
    ∃ x below, Srp.BlockedAt (appCfg bits p) q x below ∧ (x :: below) <:+ s2.m.stack ∧ (x :: below) <:+ s3.m.stack

theorem taskPreempts (h : expand tg bits raw = .ok p) {d : Nat} {ts : List Nat} {s2 s3 : System.St} {as : List System.Act} (hp : System.Preempts (sysCfg bits p) d ts s2 as s3) :
    TaskPreempts raw bits p (handlerPrio p d) s2 as s3 := by
  have prio : ∀ {n' t' k' q' args'}, Runs p n' t' → TaskIs raw t' k' q' args' → q' = handlerPrio p n' := by
    intro n' t' k' q' args' hr ht
    obtain ⟨_, _, h2⟩ := runs_prio h hr
    exact (task_unique h ht h2).2
  refine ⟨?_, ?_⟩
  · intro n' t' k' q' args' hm hr ht
    rw [prio hr ht]
    exact hp.starts _ hm
  · intro a ev s4 n' t' k' q' args' hs ho htop hr ht hlt
    rw [prio hr ht] at hlt
    rcases hp.next a ev s4 n' hs ho htop with hle | hb
    · exact absurd hle (by show ¬ handlerPrio p d ≤ handlerPrio p n'; omega)
    · exact hb

/-- **C82** (accepted applications) Take any accepted application without shared and local resources of the same name, and a software task `t` of priority `q ≥ 1`. When any task's call of `spawn` has been decided to succeed (`s0` to `s1`) and has returned (`s2`): as long as `t` has not been polled (`s3`), no task of a lower
priority than `q` is started, and none makes a step, except inside a critical section it had entered before `s2` and that blocks priority `q`. -/
theorem C82_app_spawned_preempts (h : expand tg bits raw = .ok p) (hb : bits ≤ 7) (hcol : NoCollision raw) {t : Ident} {q : Nat} {args : List TaskArg} (ht : TaskIs raw t .software q args) (hq : 1 ≤ q) {d : Nat} (hr : Runs p d t)
    {st s0 s1 s2 s3 : System.St} {as0 as1 as2 : List System.Act} {tr0 tr1 tr2 : List (Nat × Executor.Ev)} {a : Nat} (hst : System.Start (sysCfg bits p) st) (hx0 : System.Exec (sysCfg bits p) st as0 tr0 s0)
    (hok : System.Step (sysCfg bits p) s0 (.call d) [(d, .ok t a)] s1) (hx1 : System.Exec (sysCfg bits p) s1 as1 tr1 s2) (hret : (s2.ex d).pc (System.depth s0.m.stack) = .idle) (hx2 : System.Exec (sysCfg bits p) s2 as2 tr2 s3)
    (hno : (d, .polled t) ∉ tr1 ++ tr2) (hbad : ∀ t', (d, .badPoll t') ∉ tr1 ++ tr2) : TaskPreempts raw bits p q s2 as2 s3 := by
  obtain ⟨ts, h1, h2⟩ := polledBy_of_runs h ht hr
  obtain ⟨_, _, h3⟩ := runs_prio h hr
  obtain rfl : q = handlerPrio p d := (task_unique h ht h3).2
  exact taskPreempts h (System.C82_spawned_preempts (c := sysCfg bits p) (appCfg_wellFormed h hb hcol) rfl hst hx0 h1 h2 hq hok hx1 hret hx2 hno hbad)

/-- **C82** (accepted applications) The same for a waker of the live task `t`, until the task is polled or completes in the poll that was going on. -/
theorem C82_app_woken_preempts (h : expand tg bits raw = .ok p) (hb : bits ≤ 7) (hcol : NoCollision raw) {t : Ident} {q : Nat} {args : List TaskArg} (ht : TaskIs raw t .software q args) (hq : 1 ≤ q) {d : Nat} (hr : Runs p d t)
    {st s0 s1 s2 s3 : System.St} {as0 as1 as2 : List System.Act} {tr0 ev1 tr1 tr2 : List (Nat × Executor.Ev)} (hst : System.Start (sysCfg bits p) st) (hx0 : System.Exec (sysCfg bits p) st as0 tr0 s0) (hlive : (s0.ex d).running t = true)
    (hcall : System.Step (sysCfg bits p) s0 (.wake d t) ev1 s1) (hx1 : System.Exec (sysCfg bits p) s1 as1 tr1 s2) (hret : (s2.ex d).pc (System.depth s0.m.stack) = .idle) (hx2 : System.Exec (sysCfg bits p) s2 as2 tr2 s3)
    (hno : (d, .polled t) ∉ tr1 ++ tr2) (hcomp : (d, .completed t) ∉ tr1 ++ tr2) (hbad : ∀ t', (d, .badPoll t') ∉ tr1 ++ tr2) : TaskPreempts raw bits p q s2 as2 s3 := by
  obtain ⟨ts, h1, h2⟩ := polledBy_of_runs h ht hr
  obtain ⟨_, _, h3⟩ := runs_prio h hr
  obtain rfl : q = handlerPrio p d := (task_unique h ht h3).2
  exact taskPreempts h (System.C82_woken_preempts (c := sysCfg bits p) (appCfg_wellFormed h hb hcol) rfl hst hx0 h1 hq hlive hcall hx1 hret hx2 hno hcomp hbad)

/-! ### Example: in the application `exRaw`, idle (thread) spawns task 23 of priority 3, polled by the dispatcher of vector 51 (handler 52) -/

/-- idle runs; the executors of the dispatcher are in state `e`, no interrupt is pending otherwise -/
def exAt (e : Executor.St) : System.St := { m := Srp.start 0, pend := fun _ => false, ex := fun h => if h = 52 then e else Executor.init }

theorem exAt_upd (e e' : Executor.St) : { exAt e with ex := System.upd (exAt e).ex 52 e' } = exAt e' := by
  simp only [exAt, System.St.mk.injEq, true_and]
  funext h
  simp only [System.upd]
  split <;> rfl

theorem exAt_quiet {e : Executor.St} (h : e.irq = false) : System.quiet (sysCfg 4 exProg) (exAt e) := by
  rintro n ⟨-, hp, -⟩
  simp only [System.pended, exAt] at hp
  split at hp
  · split at hp
    · rw [h] at hp; cases hp
    · cases hp
  · cases hp

theorem exAt_user (e : Executor.St) : System.userCode (sysCfg 4 exProg) (exAt e) := by
  refine ⟨rfl, ?_⟩
  intro n ts hn hts
  cases hn
  have : (sysCfg 4 exProg).tasks 0 = none := by decide
  rw [this] at hts; cases hts

theorem exAt_call {e e' : Executor.St} {ev : List Executor.Ev} (hirq : e.irq = false) (hs : Executor.step ((sysCfg 4 exProg).exec 52 [23, 24]) e (.thr 1) = some (e', ev)) :
    System.Step (sysCfg 4 exProg) (exAt e) (.call 52) (ev.map (52, ·)) (exAt e') := by
  have := System.Step.call (c := sysCfg 4 exProg) (s := exAt e) 52 [23, 24] e' ev (exAt_quiet hirq) (exAt_user e) (by decide) hs
  rwa [exAt_upd] at this

/-- the hypotheses of `C82_app_spawned_preempts` are met: the call of `spawn` has returned, and the task has not been polled; the only next step is that the dispatcher is started -/
example : Runs exProg 52 23 ∧ (sysCfg 4 exProg).tasks 62 = none ∧ ∃ s0 s1 s2 as0 tr0 as1 tr1, System.Start (sysCfg 4 exProg) (exAt Executor.init) ∧ System.Exec (sysCfg 4 exProg) (exAt Executor.init) as0 tr0 s0 ∧
    System.Step (sysCfg 4 exProg) s0 (.call 52) [(52, .ok 23 5)] s1 ∧ System.Exec (sysCfg 4 exProg) s1 as1 tr1 s2 ∧ (s2.ex 52).pc (System.depth s0.m.stack) = .idle ∧ tr1 = [] ∧ ∃ s3, System.Step (sysCfg 4 exProg) s2 (.irq 52) [] s3 := by
  have ht : (sysCfg 4 exProg).tasks 52 = some [23, 24] := by decide
  have e0 := System.Step.spawn (c := sysCfg 4 exProg) (s := exAt Executor.init) 52 [23, 24] 23 5 _ [] (exAt_quiet rfl) (fun d => by simp only [exAt, ite_self]; rfl) (exAt_user _) ht rfl
  rw [exAt_upd] at e0
  have e1 := exAt_call (e := { Executor.init with pc := Executor.upd Executor.init.pc 1 (.s1 23 5) }) (ev := [.ok 23 5]) rfl rfl
  have e2 := exAt_call (e := { Executor.init with running := Executor.upd Executor.init.running 23 true, pc := Executor.upd (Executor.upd Executor.init.pc 1 (.s1 23 5)) 1 (.s2 23 5) }) (ev := []) rfl rfl
  have e3 := exAt_call (ev := []) rfl (show Executor.step ((sysCfg 4 exProg).exec 52 [23, 24]) { Executor.init with running := Executor.upd Executor.init.running 23 true, slot := Executor.upd Executor.init.slot 23 (.fresh 5), pc := Executor.upd (Executor.upd (Executor.upd Executor.init.pc 1 (.s1 23 5)) 1 (.s2 23 5)) 1 (.s3 23) } (.thr 1) = some (_, []) from rfl)
  have e4 := exAt_call (ev := []) rfl (show Executor.step ((sysCfg 4 exProg).exec 52 [23, 24]) { Executor.init with running := Executor.upd Executor.init.running 23 true, slot := Executor.upd Executor.init.slot 23 (.fresh 5), pending := Executor.upd Executor.init.pending 23 true, pc := Executor.upd (Executor.upd (Executor.upd (Executor.upd Executor.init.pc 1 (.s1 23 5)) 1 (.s2 23 5)) 1 (.s3 23)) 1 (.p 23) } (.thr 1) = some (_, []) from rfl)
  refine ⟨.inr ⟨3, [23, 24], by decide, by decide⟩, by decide, _, _, _, _, _, _, _, ⟨rfl, fun d _ _ => ⟨[], [], by simp, by simp only [exAt, ite_self]; rfl⟩, fun d _ => by simp only [exAt, ite_self]; rfl⟩, .snoc (.nil _) e0, e1, .snoc (.snoc (.snoc (.nil _) e2) e3) e4, rfl, rfl, ?_⟩
  refine ⟨_, .irqDisp 52 [23, 24] _ ht ⟨by decide, ?_, 0, rfl, by decide⟩ ?_ (.irq 52 0 rfl (by decide) (by decide))⟩
  · simp only [System.pended, ht]; rfl
  · rintro n ⟨-, hp, -⟩
    simp only [System.pended, exAt] at hp
    split at hp
    · split at hp
      · subst_vars; exact Nat.le_refl _
      · cases hp
    · cases hp

end Verif.EndToEnd
