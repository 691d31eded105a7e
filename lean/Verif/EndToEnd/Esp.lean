import Verif.EndToEnd.Props
import Verif.Analysis.TargetProps
import Verif.Esp32.Props

/-!
# End to end on the ESP32: resources of accepted applications (C71)

The machine of `Verif.Esp32` for the program generated by the `#[app]` macro for ESP32-C3/C6 (`Verif.Analysis.expandEsp`).
-/

namespace Verif.EndToEnd

open Verif.Analysis

/-- Priority of the handler of vector `v`: that of the CPU interrupt line the vector is mapped to by `enable` (`rtic/src/export/riscv_esp32c3.rs:132-149`); 0 (never started) if it is mapped to none of the 32 lines. -/
def espPrio (ep : EspProgram) : Nat → Nat
  | 0 => 0
  | v + 1 => match ep.enables.find? (fun e => e.1 = v ∧ e.2.2 ≤ 31) with
    | some e => e.2.1
    | none => 0

/-- The machine: handlers and resources as in `appCfg`. -/
def espCfg (ep : EspProgram) : Esp32.Cfg where
  prio := espPrio ep
  uses := fun h r => ∃ c ∈ ep.code.contexts, Runs ep.code h c.task ∧ (r, .proxy) ∈ c.shared
  ceil := fun r => (ep.code.mutexes.lookup r).getD 0

variable {chip : Chip} {fc : Ident → Bool} {raw : Raw} {ep : EspProgram}

theorem runs_code {p : Program} {app : App} {base : Analysis} {an : FullAnalysis} (he : EspExpanded chip fc raw ep p app base an) {n : Nat} {t : Ident} : Runs ep.code n t ↔ Runs p n t := by
  have hmain : Stmt.callIdle t ∈ espMain (espEnables chip app an) app an ↔ Stmt.callIdle t ∈ p.main := by
    rw [(codegen_ok he.exp.codegen).main]
    simp [espMain, mainStmts, preInitEnable]
  cases n with
  | zero => simp only [Runs, he.code, hmain]
  | succ v => simp only [Runs, he.code]

theorem espPrio_le {p : Program} {app : App} {base : Analysis} {an : FullAnalysis} (hp : expand .riscv 8 raw = .ok p) (he : EspExpanded chip fc raw ep p app base an) (n : Nat) :
    espPrio ep n ≤ handlerPrio p n := by
  cases n with
  | zero => exact Nat.le_refl _
  | succ v =>
    simp only [espPrio, handlerPrio]
    split
    · rename_i e hf
      obtain ⟨v', q, k⟩ := e
      have hm := List.mem_of_find?_eq_some hf
      have h2 := List.find?_some hf
      simp only [decide_eq_true_eq] at h2
      obtain ⟨rfl, -⟩ := h2
      rw [he.enables] at hm
      obtain ⟨j, hj, -⟩ := espZip_mem hm
      rcases (mem_espVectors he.exp).mp (List.mem_of_getElem? hj) with ⟨t, ht⟩ | ⟨ts, ht⟩
      · rw [vecPrio_hw hp ht]; exact Nat.le_refl _
      · rw [vecPrio_disp hp ht]; exact Nat.le_refl _
    · exact Nat.zero_le _

theorem handler_prio_pos {p : Program} (hp : expand .riscv 8 raw = .ok p) {v : Ident} {q : Nat} (h : p.handler v q) : vecPrio p v = q := by
  rcases h with ⟨t, ht⟩ | ⟨ts, ht⟩
  · exact vecPrio_hw hp ht
  · exact vecPrio_disp hp ht

/-- handlers have the priority of their tasks, if the chip has a line for each -/
theorem espPrio_eq {p : Program} {app : App} {base : Analysis} {an : FullAnalysis} (h : expandEsp chip fc raw = .ok ep) (hn : ep.code.handlerCount ≤ chip.count)
    (hp : expand .riscv 8 raw = .ok p) (he : EspExpanded chip fc raw ep p app base an) {n : Nat} {t : Ident} (ht : Runs p n t) : espPrio ep n = handlerPrio p n := by
  cases n with
  | zero => rfl
  | succ v =>
    have hv : ∃ q, p.handler v q := by
      rcases ht with ⟨q, hw⟩ | ⟨q, ts, hd, -⟩
      · exact ⟨q, .inl ⟨t, hw⟩⟩
      · exact ⟨q, .inr ⟨ts, hd⟩⟩
    obtain ⟨q, hv⟩ := hv
    have hcode : ep.code = { p with main := ep.code.main } := by rw [he.code]
    obtain ⟨-, -, k, -, hk, hm, -⟩ := (C70_lines_partial h hn).1 v q ((handler_code hcode).mpr hv)
    simp only [espPrio, handlerPrio, handler_prio_pos hp hv]
    split
    · rename_i e hf
      obtain ⟨v', q', k'⟩ := e
      have hme := List.mem_of_find?_eq_some hf
      have h2 := List.find?_some hf
      simp only [decide_eq_true_eq] at h2
      obtain ⟨rfl, -⟩ := h2
      exact ((hm _ _).mp hme).1
    · rename_i hf
      have := List.find?_eq_none.mp hf _ ((hm q k).mpr ⟨rfl, rfl⟩)
      simp [hk] at this

theorem esp_task_prio_le {p : Program} {app : App} {base : Analysis} {an : FullAnalysis} (h : expandEsp chip fc raw = .ok ep) (hn : ep.code.handlerCount ≤ chip.count)
    (hp : expand .riscv 8 raw = .ok p) (he : EspExpanded chip fc raw ep p app base an) {t : Ident} {k : Kind} {q : Nat} {args : List TaskArg} (ht : TaskIs raw t k q args) : q ≤ 14 := by
  have hcode : ep.code = { p with main := ep.code.main } := by rw [he.code]
  obtain ⟨n, hr⟩ := runs_total hp ht
  obtain ⟨_, _, h1⟩ := runs_prio hp hr
  rw [(task_unique hp ht h1).2]
  cases n with
  | zero => exact Nat.zero_le _
  | succ v =>
    have hv : ∃ q, p.handler v q := by
      rcases hr with ⟨q, hw⟩ | ⟨q, ts, hd, -⟩
      · exact ⟨q, .inl ⟨t, hw⟩⟩
      · exact ⟨q, .inr ⟨ts, hd⟩⟩
    obtain ⟨q, hv⟩ := hv
    obtain ⟨-, h2, -⟩ := (C70_lines_partial h hn).1 v q ((handler_code hcode).mpr hv)
    simp only [handlerPrio, handler_prio_pos hp hv]
    exact h2

/-- The machine of an accepted application satisfies the assumptions under which locking was studied. -/
theorem espCfg_wellFormed (h : expandEsp chip fc raw = .ok ep) (hn : ep.code.handlerCount ≤ chip.count) (hcol : NoCollision raw) : Esp32.WellFormed (espCfg ep) := by
  obtain ⟨p, app, base, an, hp, he⟩ := expandEsp_ok h
  have hcode : ep.code = { p with main := ep.code.main } := by rw [he.code]
  refine ⟨?_, ?_, ?_⟩
  · intro n
    cases n with
    | zero => exact Nat.zero_le _
    | succ v =>
      simp only [espCfg, espPrio]
      split
      · rename_i e hf
        have hm := List.mem_of_find?_eq_some hf
        have hfit := he.fits
        rw [← he.enables] at hfit
        have := List.all_eq_true.mp hfit _ hm
        simp only [decide_eq_true_eq] at this
        omega
      · exact Nat.zero_le _
  · rintro n r ⟨c, hc, hr, hm⟩
    have hc' : c ∈ p.contexts := by rw [hcode] at hc; exact hc
    have := ceil_bounds hp hcol (n := n) (r := r) ⟨c, hc', (runs_code he).mp hr, hm⟩
    have hle := espPrio_le hp he n
    simp only [espCfg]
    rw [show ep.code.mutexes = p.mutexes by rw [hcode]]
    omega
  · intro r
    simp only [espCfg]
    rw [show ep.code.mutexes = p.mutexes by rw [hcode]]
    by_cases hm : ∃ ce, (r, ce) ∈ p.mutexes
    · obtain ⟨ce, hce⟩ := hm
      have hg := codegen_ok he.exp.codegen
      have : ∃ res, SharedField raw r res ∧ res.lockFree = false := by
        rw [hg.mutexes] at hce
        simp only [List.mem_map, List.mem_filter, Prod.mk.injEq] at hce
        obtain ⟨⟨k, res⟩, ⟨hk, hl⟩, rfl, -⟩ := hce
        exact ⟨res, (he.exp.says.sharedRes _ _).mp hk, by simpa using hl⟩
      obtain ⟨res, hf, hlf⟩ := this
      obtain ⟨ce, huniq, -, hatt⟩ := C40_ceiling_is_max_partial hp hf hlf (fun t q hl => hcol t q r res hl hf)
      rw [lookup_unique huniq]
      rcases hatt with ⟨t, a, k, args, l, ht, -⟩ | ⟨rfl, -⟩
      · exact esp_task_prio_le h hn hp he ht
      · exact Nat.zero_le _
    · rw [lookup_none (fun c' hc => hm ⟨c', hc⟩)]; exact Nat.zero_le _

/-- **C71** (lock; partial: for executions in which no task takes a lock with a lower ceiling inside one with a higher ceiling, see `C71_lock_violated`) Take any accepted application for ESP32-C3/C6 with a line for every handler and without
shared and local resources of the same name. If a task is inside `lock` on `r` (record `x`), no handler started since then executes a task that has `r` in its `shared` list (exclusively; a resource with locks cannot be used otherwise, C45). -/
theorem C71_lock_exclusive_partial (h : expandEsp chip fc raw = .ok ep) (hn : ep.code.handlerCount ≤ chip.count) (hcol : NoCollision raw) {t0 : Nat} (ht0 : t0 ≤ 1) {as : List Esp32.Act} {s : Esp32.St}
    (hx : Esp32.ExecOrd (espCfg ep) (Esp32.start 0 t0) as s) {above below : List Esp32.Rec} {x y : Esp32.Rec} {r : Ident} {n : Nat} (hst : s.stack = above ++ x :: below)
    (hl : Esp32.InsideLock r x) (hy : y ∈ above) (hn' : Esp32.ActivationOf n y) {t : Ident} (ht : Runs ep.code n t) {res : SharedRes} (hr : SharedField raw r res) (hlf : res.lockFree = false) (q : Nat) :
    ¬ UsesShared raw t q r .exclusive := by
  intro hu
  have hno := Esp32.C51_mutual_exclusion_partial (espCfg_wellFormed h hn hcol) ht0 rfl hx hst hl hy hn'
  obtain ⟨p, app, base, an, hp, he⟩ := expandEsp_ok h
  obtain ⟨k, args, l, hti, hla, hrl⟩ := hu
  obtain ⟨c, hc, hct, -, -, hproxy, -⟩ := C40_handles hp hti
  exact hno ⟨c, by rw [he.code]; exact hc, by rw [hct]; exact ht, (hproxy r).mpr ⟨⟨l, hla, hrl⟩, res, hr, hlf⟩⟩

/-- tasks of two handlers of which one preempted the other, in the middle of its task, have different priorities -/
theorem esp_active_prio (h : expandEsp chip fc raw = .ok ep) (hn : ep.code.handlerCount ≤ chip.count) (hcol : NoCollision raw) {t0 : Nat} {as : List Esp32.Act} {s : Esp32.St}
    (hx : Esp32.Exec (espCfg ep) (Esp32.start 0 t0) as s) {above below : List Esp32.Rec} {x y : Esp32.Rec} {n m : Nat} (hst : s.stack = above ++ x :: below) (hx' : Esp32.ActivationOf n x)
    (hy : y ∈ below) (hm : Esp32.RunningOf m y) {t t' : Ident} (ht : Runs ep.code n t) (ht' : Runs ep.code m t') {q q' : Nat} {k k' : Kind} {args args' : List TaskArg}
    (hi : TaskIs raw t k q args) (hi' : TaskIs raw t' k' q' args') : q' < q := by
  have hlt := Esp32.C52_esp_running_is_highest (espCfg_wellFormed h hn hcol) (idle := 0) rfl hx hst hx' hy hm
  obtain ⟨p, app, base, an, hp, he⟩ := expandEsp_ok h
  have hr := (runs_code he).mp ht
  have hr' := (runs_code he).mp ht'
  obtain ⟨_, _, h1⟩ := runs_prio hp hr
  obtain ⟨_, _, h2⟩ := runs_prio hp hr'
  have e1 := (task_unique hp hi h1).2
  have e2 := (task_unique hp hi' h2).2
  simp only [espCfg, espPrio_eq h hn hp he hr, espPrio_eq h hn hp he hr'] at hlt
  omega

/-- **C71** (`lock_free`) In the same setting, for every execution: a handler never preempts a task in the middle of its body to execute a task that has the same `lock_free` resource. -/
theorem C71_lock_free_exclusive (h : expandEsp chip fc raw = .ok ep) (hn : ep.code.handlerCount ≤ chip.count) (hcol : NoCollision raw) {t0 : Nat} {as : List Esp32.Act} {s : Esp32.St}
    (hx : Esp32.Exec (espCfg ep) (Esp32.start 0 t0) as s) {above below : List Esp32.Rec} {x y : Esp32.Rec} {n m : Nat} (hst : s.stack = above ++ x :: below) (hx' : Esp32.ActivationOf n x)
    (hy : y ∈ below) (hm : Esp32.RunningOf m y) {t t' : Ident} (ht : Runs ep.code n t) (ht' : Runs ep.code m t') {r : Ident} {res : SharedRes} (hr : SharedField raw r res) (hlf : res.lockFree = true)
    {q q' : Nat} {a a' : Access} (hu : UsesShared raw t q r a) : ¬ UsesShared raw t' q' r a' := by
  intro hu'
  obtain ⟨p, app, base, an, hp, he⟩ := expandEsp_ok h
  have heq := (C41_lock_free_single_priority hp hr hlf).1 _ _ _ _ _ _ hu hu'
  obtain ⟨k, args, l, hti, -⟩ := hu
  obtain ⟨k', args', l', hti', -⟩ := hu'
  have := esp_active_prio h hn hcol hx hst hx' hy hm ht ht' hti hti'
  omega

/-- **C71** (local) In the same setting, for every execution: a handler never preempts a task in the middle of its body to execute a task that has the same `#[local]` resource. -/
theorem C71_local_exclusive (h : expandEsp chip fc raw = .ok ep) (hn : ep.code.handlerCount ≤ chip.count) (hcol : NoCollision raw) {t0 : Nat} {as : List Esp32.Act} {s : Esp32.St}
    (hx : Esp32.Exec (espCfg ep) (Esp32.start 0 t0) as s) {above below : List Esp32.Rec} {x y : Esp32.Rec} {n m : Nat} (hst : s.stack = above ++ x :: below) (hx' : Esp32.ActivationOf n x)
    (hy : y ∈ below) (hm : Esp32.RunningOf m y) {t t' : Ident} (ht : Runs ep.code n t) (ht' : Runs ep.code m t') {r : Ident} {q q' : Nat}
    (hu : UsesLocal raw t q r) : ¬ UsesLocal raw t' q' r := by
  intro hu'
  obtain ⟨p, app, base, an, hp, he⟩ := expandEsp_ok h
  obtain ⟨ty, hr⟩ := (C45_resources_validated hp).2.1 _ _ _ hu
  have heq := (C42_local_exclusive hp hr).1 _ _ _ _ hu hu'
  subst heq
  obtain ⟨k, args, l, hti, -⟩ := hu
  obtain ⟨k', args', l', hti', -⟩ := hu'
  have := esp_active_prio h hn hcol hx hst hx' hy hm ht ht' hti hti'
  have := (task_unique hp hti hti').2
  omega

/-- **C71** Every task is executed by a handler, which has the priority of the task: the theorems above speak about all tasks. -/
theorem C71_all_tasks_run (h : expandEsp chip fc raw = .ok ep) (hn : ep.code.handlerCount ≤ chip.count) {t : Ident} {k : Kind} {q : Nat} {args : List TaskArg} (ht : TaskIs raw t k q args) :
    ∃ n, Runs ep.code n t ∧ (espCfg ep).prio n = q := by
  obtain ⟨p, app, base, an, hp, he⟩ := expandEsp_ok h
  obtain ⟨n, hr⟩ := runs_total hp ht
  obtain ⟨_, _, h1⟩ := runs_prio hp hr
  exact ⟨n, (runs_code he).mpr hr, by simp only [espCfg]; rw [espPrio_eq h hn hp he hr]; exact (task_unique hp h1 ht).2⟩

/-! ### Examples and the counterexample -/

/-- Hardware tasks 20 (priority 1) and 21 (priority 3) share resource 10 (ceiling 3); idle and task 20 share resource 11 (ceiling 1). -/
def nestRaw : Raw :=
  { dispatchers := [],
    items := [
      .sharedStruct 1 [(10, { ty := 110, lockFree := false }), (11, { ty := 111, lockFree := false })],
      .localStruct 2 [],
      .init 3 [] true 1 2,
      .idle 4 [.shared [(11, .exclusive)]] true,
      .task 20 [.binds 60, .priority 1, .shared [(10, .exclusive), (11, .exclusive)]] false [] true,
      .task 21 [.binds 61, .priority 3, .shared [(10, .exclusive)]] false [] true] }

def nestProg : EspProgram :=
  { code :=
      { contexts := [{ task := 4, priority := 0, isAsync := false, shared := [(11, .proxy)], locals := [] },
          { task := 20, priority := 1, isAsync := false, shared := [(10, .proxy), (11, .proxy)], locals := [] },
          { task := 21, priority := 3, isAsync := false, shared := [(10, .proxy)], locals := [] }],
        mutexes := [(10, 3), (11, 1)], hwHandlers := [(60, 1, 20), (61, 3, 21)], dispatchers := [], pends := [], localSpawn := [], freeSpawn := [], sendAsserts := [110, 111], syncAsserts := [], asyncMax := some 0,
        main := [.disableInterrupts, .setPriority 60 1, .unmask 60, .setPriority 61 3, .unmask 61, .callInit, .writeShared 10, .writeShared 11, .enableInterrupts, .callIdle 4] },
    enables := [(60, 1, 16), (61, 3, 17)], exports := [(60, [16]), (61, [17])] }

theorem nestRaw_accepted : expandEsp .c3 (fun _ => false) nestRaw = .ok nestProg := by decide +kernel

theorem nestRaw_noCollision : NoCollision nestRaw := by
  intro t q r res hl hf
  obtain ⟨k, args, l, ht, hla, -⟩ := hl
  cases ht <;> rename_i hm <;> simp [nestRaw] at *
  all_goals grind

/-- **C71** violated: in the accepted application `nestRaw`, task 20 locks resource 10 and, inside, resource 11 (of lower ceiling); task 21 preempts it and is inside `lock` on resource 10 too. -/
theorem C71_lock_violated : ∃ ep as s, expandEsp .c3 (fun _ => false) nestRaw = .ok ep ∧ ep.code.handlerCount ≤ Chip.c3.count ∧ NoCollision nestRaw ∧ Esp32.Exec (espCfg ep) (Esp32.start 0 0) as s ∧
    s.stack = [.lk 10 4, .body 62 2 (some 4), .lk 11 4, .lk 10 2, .body 61 0 none, .body 0 0 none] ∧ Runs ep.code 61 20 ∧ Runs ep.code 62 21 := by
  refine ⟨nestProg, [] ++ [.irq 61] ++ [.readInitial] ++ [.lock 10] ++ [.raise] ++ [.lock 11] ++ [.raise] ++ [.irq 62] ++ [.readInitial] ++ [.lock 10] ++ [.raise],
    ⟨[.lk 10 4, .body 62 2 (some 4), .lk 11 4, .lk 10 2, .body 61 0 none, .body 0 0 none], 4, false⟩, nestRaw_accepted, by decide, nestRaw_noCollision, ?_, rfl, .inl ⟨1, by decide⟩, .inl ⟨3, by decide⟩⟩
  have u1 : (espCfg nestProg).uses 61 10 := ⟨⟨20, 1, false, [(10, .proxy), (11, .proxy)], []⟩, by decide, .inl ⟨1, by decide⟩, by decide⟩
  have u2 : (espCfg nestProg).uses 61 11 := ⟨⟨20, 1, false, [(10, .proxy), (11, .proxy)], []⟩, by decide, .inl ⟨1, by decide⟩, by decide⟩
  have u3 : (espCfg nestProg).uses 62 10 := ⟨⟨21, 3, false, [(10, .proxy)], []⟩, by decide, .inl ⟨3, by decide⟩, by decide⟩
  exact .snoc (.snoc (.snoc (.snoc (.snoc (.snoc (.snoc (.snoc (.snoc (.snoc (.nil _) (.irq 61 (by decide) rfl (by decide))) (.readInitial 61 0 _ rfl))
    (.lock 61 10 rfl rfl u1 (by decide))) (.raise 10 2 _ rfl)) (.lock 61 11 rfl rfl u2 (by decide))) (.raise 11 4 _ rfl))
    (.irq 62 (by decide) rfl (by decide))) (.readInitial 62 2 _ rfl)) (.lock 62 10 rfl rfl u3 (by decide))) (.raise 10 4 _ rfl)

/-- an ordered execution: task 20 inside resource 11 is preempted by task 21 -/
example : ∃ as s, Esp32.ExecOrd (espCfg nestProg) (Esp32.start 0 0) as s ∧ s.stack = [.enter 62 2, .lk 11 2, .body 61 0 none, .body 0 0 none] := by
  refine ⟨[] ++ [.irq 61] ++ [.readInitial] ++ [.lock 11] ++ [.raise] ++ [.irq 62], ⟨[.enter 62 2, .lk 11 2, .body 61 0 none, .body 0 0 none], 4, false⟩, ?_, rfl⟩
  have u2 : (espCfg nestProg).uses 61 11 := ⟨⟨20, 1, false, [(10, .proxy), (11, .proxy)], []⟩, by decide, .inl ⟨1, by decide⟩, by decide⟩
  refine .snoc (.snoc (.snoc (.snoc (.snoc (.nil _) (.irq 61 (by decide) rfl (by decide)) ?_) (.readInitial 61 0 _ rfl) ?_) (.lock 61 11 rfl rfl u2 (by decide)) ?_) (.raise 11 2 _ rfl) ?_)
    (.irq 62 (by decide) rfl (by decide)) ?_ <;> intro r h <;> cases h
  intro r' hr'; simp [Esp32.held] at hr'

end Verif.EndToEnd
