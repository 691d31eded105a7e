import Verif.EndToEnd.Props
import Verif.Srp.Blocking
import Verif.SourceMask.Blocking

/-!
# End to end: scheduling of accepted applications (C52, C64, C74, C75)
-/

namespace Verif.SourceMask

/-- **C52** (interrupt-masking targets) The task that runs has a higher priority than every task it has preempted: no task ever waits for one it preempted. -/
theorem C52_mask_running_is_highest {c : Cfg} (hwf : WellFormed c) {idle : Nat} (hidle : c.prio idle = 0) {e0 : Regs} {as : List Act} {s : St} (hx : Exec c (start idle e0) as s)
    {above below : List Rec} {x y : Rec} {t t' : Nat} (hst : s.stack = above ++ x :: below) (ha : ActivationOf t x) (hy : y ∈ below) (ha' : ActivationOf t' y) : c.prio t' < c.prio t := by
  have hi := inv_exec hwf hx (inv_start e0 hidle)
  have hok : Ok c e0 (x :: below) := by have := hi.ok; rw [hst] at this; exact ok_append this
  obtain ⟨-, ⟨cur, hc, hlt⟩, -⟩ := act_admitted hok ha (by rintro rfl; cases hy)
  have := top_max (ok_append (l1 := [x]) hok) hc hy ha'
  omega

/-- non-vacuity: task 3 has preempted idle inside its lock -/
example : ∃ as s, Exec demo (start 0 en0) as s ∧ s.stack = [] ++ .body 3 :: [.lk 10 old0, .body 0] ∧ demo.prio 0 < demo.prio 3 := by
  refine ⟨_, _, .snoc demo_locked (.irq 3 0 rfl ⟨rfl, by decide, fun n hn => ?_⟩), rfl, by decide⟩
  have : n = 40 := by simpa [demo] using hn.symm
  subst this; decide

end Verif.SourceMask

namespace Verif.EndToEnd

open Verif.Analysis

variable {tg : Target} {bits : Nat} {raw : Raw} {p : Program}

/-- Tasks of two handlers that are active at the same time have different priorities. -/
theorem active_prio_mask (h : expand tg bits raw = .ok p) (hcol : NoCollision raw) {num : Ident → Nat} {e0 : SourceMask.Regs} {as : List SourceMask.Act} {s : SourceMask.St}
    (hx : SourceMask.Exec (maskCfg tg num p) (SourceMask.start 0 e0) as s)
    {above below : List SourceMask.Rec} {x y : SourceMask.Rec} {n m : Nat} (hst : s.stack = above ++ x :: below) (hn : SourceMask.ActivationOf n x) (hy : y ∈ below) (hm : SourceMask.ActivationOf m y)
    {t t' : Ident} (ht : Runs p n t) (ht' : Runs p m t') {q q' : Nat} {k k' : Kind} {args args' : List TaskArg} (hi : TaskIs raw t k q args) (hi' : TaskIs raw t' k' q' args') : q' < q := by
  have hlt := SourceMask.C52_mask_running_is_highest (maskCfg_wellFormed h hcol num) (idle := 0) rfl hx hst hn hy hm
  obtain ⟨_, _, h1⟩ := runs_prio h ht
  obtain ⟨_, _, h2⟩ := runs_prio h ht'
  have e1 := (task_unique h hi h1).2
  have e2 := (task_unique h hi' h2).2
  simp only [maskCfg] at hlt
  omega

/-- **C64** (`lock_free`, targets without BASEPRI) Two handlers that are active at the same time, bound to interrupts or exceptions, never execute tasks that both have the same `lock_free` resource. -/
theorem C64_mask_lock_free_exclusive (h : expand tg bits raw = .ok p) (hcol : NoCollision raw) {num : Ident → Nat} {e0 : SourceMask.Regs} {as : List SourceMask.Act} {s : SourceMask.St}
    (hx : SourceMask.Exec (maskCfg tg num p) (SourceMask.start 0 e0) as s)
    {above below : List SourceMask.Rec} {x y : SourceMask.Rec} {n m : Nat} (hst : s.stack = above ++ x :: below) (hn : SourceMask.ActivationOf n x) (hy : y ∈ below) (hm : SourceMask.ActivationOf m y)
    {t t' : Ident} (ht : Runs p n t) (ht' : Runs p m t') {r : Ident} {res : SharedRes} (hr : SharedField raw r res) (hlf : res.lockFree = true) {q q' : Nat} {a a' : Access}
    (hu : UsesShared raw t q r a) : ¬ UsesShared raw t' q' r a' := by
  intro hu'
  have heq := (C41_lock_free_single_priority h hr hlf).1 _ _ _ _ _ _ hu hu'
  obtain ⟨k, args, l, hti, -⟩ := hu
  obtain ⟨k', args', l', hti', -⟩ := hu'
  have := active_prio_mask h hcol hx hst hn hy hm ht ht' hti hti'
  omega

/-- **C64** (local, targets without BASEPRI) Two handlers that are active at the same time never execute tasks that both have the same `#[local]` resource. -/
theorem C64_mask_local_exclusive (h : expand tg bits raw = .ok p) (hcol : NoCollision raw) {num : Ident → Nat} {e0 : SourceMask.Regs} {as : List SourceMask.Act} {s : SourceMask.St}
    (hx : SourceMask.Exec (maskCfg tg num p) (SourceMask.start 0 e0) as s)
    {above below : List SourceMask.Rec} {x y : SourceMask.Rec} {n m : Nat} (hst : s.stack = above ++ x :: below) (hn : SourceMask.ActivationOf n x) (hy : y ∈ below) (hm : SourceMask.ActivationOf m y)
    {t t' : Ident} (ht : Runs p n t) (ht' : Runs p m t') {r : Ident} {q q' : Nat} (hu : UsesLocal raw t q r) : ¬ UsesLocal raw t' q' r := by
  intro hu'
  obtain ⟨ty, hr⟩ := (C45_resources_validated h).2.1 _ _ _ hu
  have heq := (C42_local_exclusive h hr).1 _ _ _ _ hu hu'
  subst heq
  obtain ⟨k, args, l, hti, -⟩ := hu
  obtain ⟨k', args', l', hti', -⟩ := hu'
  have := active_prio_mask h hcol hx hst hn hy hm ht ht' hti hti'
  have := (task_unique h hti hti').2
  omega

/-- **C74** (accepted applications, BASEPRI) Take any accepted application without shared and local resources of the same name, any execution up to the moment `s0` at which the handler `n` of task `t`, of priority `q`, is pended, and any continuation in
which it has not started yet. Then every task of a handler started meanwhile has at least priority `q`; and if some lower-priority task still blocks it, this is because of a critical section that this task had already entered in `s0`. -/
theorem C74_app_blocked_once (h : expand tg bits raw = .ok p) (hb : bits ≤ 7) (hcol : NoCollision raw) {t : Ident} {k : Kind} {q : Nat} {args : List TaskArg} (ht : TaskIs raw t k q args) (hq : 1 ≤ q) {n : Nat} (hr : Runs p n t)
    {as0 as : List Srp.Act} {s0 s : Srp.St} (hx : Srp.Exec (appCfg bits p) (Srp.start 0) as0 s0) (hw : Srp.Waiting (appCfg bits p) n s0 as s) :
    (∀ n' t' k' q' args', .irq n' ∈ as → Runs p n' t' → TaskIs raw t' k' q' args' → q ≤ q') ∧
    (Srp.Blocked (appCfg bits p) q s.stack → ∃ x below, Srp.BlockedAt (appCfg bits p) q x below ∧ (x :: below) <:+ s0.stack ∧ (x :: below) <:+ s.stack) := by
  have hwf := appCfg_wellFormed h hb hcol
  obtain ⟨_, _, h1⟩ := runs_prio h hr
  have e1 : (appCfg bits p).prio n = q := ((task_unique h ht h1).2).symm
  subst e1
  refine ⟨fun n' t' k' q' args' hm hr' ht' => ?_, Srp.C74_blocked_once hwf (idle := 0) rfl hq hx hw⟩
  have := Srp.C74_no_lower_starts hwf (idle := 0) rfl hq hx hw hm
  obtain ⟨_, _, h2⟩ := runs_prio h hr'
  have e2 : (appCfg bits p).prio n' = q' := ((task_unique h ht' h2).2).symm
  omega

/-- non-vacuity: idle is inside `lock` on resource 10 (ceiling 2) when the hardware task 21 (handler 62, priority 2, which does not use the resource) is pended; the dispatcher of priority 3 is started and returns, idle leaves the lock -/
example : ∃ as0 s0 as s, Srp.Exec (appCfg 4 exProg) (Srp.start 0) as0 s0 ∧ Srp.Waiting (appCfg 4 exProg) 62 s0 as s ∧ as = [.irq 52, .readInitial, .finish, .ret, .unlock] ∧ Runs exProg 62 21 ∧
    Srp.Blocked (appCfg 4 exProg) 2 s0.stack ∧ ∃ s', Srp.Step (appCfg 4 exProg) s (.irq 62) s' := by
  have h0 : Srp.Exec (appCfg 4 exProg) (Srp.start 0) ([] ++ [.lock 10] ++ [.raise]) ⟨[.lk 10 0, .body 0 none], 0xe0, false⟩ := by
    refine .snoc (.snoc (.nil _) (.lock 0 10 rfl rfl ?_ (by decide))) (.raise 10 0 _ rfl)
    exact ⟨_, List.mem_cons_self, .inl (by decide), by decide⟩
  have hw : Srp.Waiting (appCfg 4 exProg) 62 ⟨[.lk 10 0, .body 0 none], 0xe0, false⟩ ([] ++ [.irq 52] ++ [.readInitial] ++ [.finish] ++ [.ret] ++ [.unlock]) ⟨[.body 0 none], 0, false⟩ := by
    refine .snoc (.snoc (.snoc (.snoc (.snoc (.nil _) (.irq 52 0 rfl (by decide) (by decide)) (by decide) ?_) (.readInitial 52 _ rfl) (by decide) ?_) (.finish 52 0xe0 _ rfl) (by decide) ?_) (.ret 52 _ rfl) (by decide) ?_)
      (.unlock 10 0 _ rfl) (by decide) ?_ <;> (intro cur hc ha; cases hc; exact absurd ha (by decide))
  exact ⟨_, _, _, _, h0, hw, rfl, .inl ⟨2, by decide⟩, ⟨.lk 10 0, _, List.suffix_rfl, by show 2 ≤ (appCfg 4 exProg).ceil 10; decide, 0, rfl, by decide⟩, _, .irq 62 0 rfl (by decide) (by decide)⟩

end Verif.EndToEnd
