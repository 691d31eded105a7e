import Verif.EndToEnd.System
import Verif.MaskSystem.Cases
import Verif.Analysis.AcceptProps

/-!
# C91 for accepted applications: targets that mask interrupt sources
-/

namespace Verif.EndToEnd

open Verif.Analysis

variable {tg : Target} {bits : Nat} {raw : Raw} {p : Program}

/-- The whole system of `Verif.MaskSystem` for a generated program; `num`: interrupt numbers. -/
def maskSysCfg (tg : Target) (num : Ident → Nat) (p : Program) : MaskSystem.Cfg where
  sm := maskCfg tg num p
  tasks := polledBy p

/-- the vector is used by the application -/
def UsedVec (p : Program) (v : Ident) : Prop := (∃ q t, (v, q, t) ∈ p.hwHandlers) ∨ ∃ q ts, (some v, q, ts) ∈ p.dispatchers

/-- The interrupts used by the application have different numbers, and startup has enabled them; those of tasks of lower priority than `q` are in the same register (of 32 interrupts) as the dispatcher of priority `q`; tasks bound to exceptions have at least priority `q`. -/
structure PlainApp (tg : Target) (num : Ident → Nat) (p : Program) (e0 : SourceMask.Regs) (q : Nat) : Prop where
  inj : ∀ v w, UsedVec p v → UsedVec p w → tg.isException v = false → tg.isException w = false → num v = num w → v = w
  same : ∀ v q' w ts, ((∃ t, (v, q', t) ∈ p.hwHandlers) ∨ ∃ ts, (some v, q', ts) ∈ p.dispatchers) → q' < q → tg.isException v = false → (some w, q, ts) ∈ p.dispatchers → num v / 32 = num w / 32
  exc : ∀ v q' t, (v, q', t) ∈ p.hwHandlers → tg.isException v = true → q ≤ q'
  on : ∀ v, UsedVec p v → tg.isException v = false → SourceMask.enabled e0 (num v) = true

theorem dispatcher_irq (h : expand tg bits raw = .ok p) {v : Ident} {q : Nat} {ts : List Ident} (hd : (some v, q, ts) ∈ p.dispatchers) : tg.isException v = false :=
  (((C84_accepted_iff tg bits raw).1 ⟨p, h⟩).dispatchers v ((C44_one_dispatcher_per_priority h).2.2.2.1 _ _ _ hd).1).1

theorem polled_dispatcher {n : Nat} {ts : List Ident} (h : polledBy p n = some ts) : ∃ q, (vecOf n, q, ts) ∈ p.dispatchers := by
  simp only [polledBy, Option.map_eq_some_iff] at h
  obtain ⟨⟨o, q, ts'⟩, hf, rfl⟩ := h
  have hx := List.find?_some hf
  have hx : o = vecOf n := of_decide_eq_true hx
  subst hx
  exact ⟨q, List.mem_of_find?_eq_some hf⟩

theorem le_foldr_max {l : List Nat} {x : Nat} (h : x ∈ l) : x ≤ l.foldr max 0 := by
  induction l with
  | nil => cases h
  | cons y l ih =>
    rcases List.mem_cons.1 h with rfl | h
    · exact Nat.le_max_left _ _
    · exact Nat.le_trans (ih h) (Nat.le_max_right _ _)

/-- a vector with a priority is used, and has this priority -/
theorem used_of_prio {v : Ident} (hp : 1 ≤ vecPrio p v) : (∃ t, (v, vecPrio p v, t) ∈ p.hwHandlers) ∨ ∃ ts, (some v, vecPrio p v, ts) ∈ p.dispatchers := by
  unfold vecPrio at hp ⊢
  cases hf : p.hwHandlers.find? (fun x => x.1 = v) with
  | some x =>
    have e := List.find?_some hf
    simp only [decide_eq_true_eq] at e
    subst e
    exact .inl ⟨x.2.2, List.mem_of_find?_eq_some hf⟩
  | none =>
    rw [hf] at hp
    cases hg : p.dispatchers.find? (fun x => x.1 = some v) with
    | some x =>
      obtain ⟨o, q, ts⟩ := x
      have e := List.find?_some hg
      simp only [decide_eq_true_eq] at e
      subst e
      exact .inr ⟨ts, List.mem_of_find?_eq_some hg⟩
    | none => simp [hg] at hp

/-- priorities are bounded -/
theorem prio_bounded (p : Program) : ∃ b, ∀ n, handlerPrio p n ≤ b := by
  refine ⟨(p.hwHandlers.map (·.2.1) ++ p.dispatchers.map (·.2.1)).foldr max 0, fun n => ?_⟩
  cases n with
  | zero => exact Nat.zero_le _
  | succ v =>
    show vecPrio p v ≤ _
    rcases Nat.eq_zero_or_pos (vecPrio p v) with h0 | h0
    · omega
    · apply le_foldr_max
      rcases used_of_prio h0 with ⟨t, h⟩ | ⟨ts, h⟩
      · exact List.mem_append_left _ (List.mem_map.2 ⟨_, h, rfl⟩)
      · exact List.mem_append_right _ (List.mem_map.2 ⟨_, h, rfl⟩)

theorem mem_appIrqs {num : Ident → Nat} {q n : Nat} : (q, n) ∈ appIrqs tg num p ↔
    (∃ v ts, (some v, q, ts) ∈ p.dispatchers ∧ num v = n) ∨ ∃ v t, (v, q, t) ∈ p.hwHandlers ∧ tg.isException v = false ∧ num v = n := by
  simp only [appIrqs, List.mem_append, List.mem_filterMap, List.mem_map, List.mem_filter, Option.map_eq_some_iff, Prod.mk.injEq]
  constructor
  · rintro (⟨⟨o, q', ts⟩, hd, v, ho, rfl, rfl⟩ | ⟨⟨v, q', t⟩, ⟨hw, he⟩, rfl, rfl⟩)
    · simp only at ho; subst ho; exact .inl ⟨v, ts, hd, rfl⟩
    · exact .inr ⟨v, t, hw, by simpa using he, rfl⟩
  · rintro (⟨v, ts, hd, rfl⟩ | ⟨v, t, hw, he, rfl⟩)
    · exact .inl ⟨_, hd, v, rfl, rfl, rfl⟩
    · exact .inr ⟨_, ⟨hw, by simpa using he⟩, rfl, rfl⟩

/-- an interrupt number has one priority, if the vectors in use have different numbers -/
theorem appIrqs_unique (h : expand tg bits raw = .ok p) {num : Ident → Nat} (hinj : ∀ v w, UsedVec p v → UsedVec p w → tg.isException v = false → tg.isException w = false → num v = num w → v = w) (q q' n : Nat)
    (h1 : (q, n) ∈ appIrqs tg num p) (h2 : (q', n) ∈ appIrqs tg num p) : q = q' := by
  obtain ⟨-, -, h3, -, -⟩ := C44_one_dispatcher_per_priority h
  obtain ⟨-, hnd, hdis⟩ := C44_dispatchers_not_hardware h
  rcases mem_appIrqs.1 h1 with ⟨v, ts, hd, hv⟩ | ⟨v, t, hw, he, hv⟩ <;> rcases mem_appIrqs.1 h2 with ⟨w, ts', hd', hw'⟩ | ⟨w, t', hw', he', hv'⟩
  · obtain rfl := hinj v w (.inr ⟨_, _, hd⟩) (.inr ⟨_, _, hd'⟩) (dispatcher_irq h hd) (dispatcher_irq h hd') (by omega)
    exact h3 _ _ _ _ _ hd hd'
  · obtain rfl := hinj v w (.inr ⟨_, _, hd⟩) (.inl ⟨_, _, hw'⟩) (dispatcher_irq h hd) he' (by omega)
    exact absurd hd (hdis _ _ _ _ _ hw')
  · obtain rfl := hinj v w (.inl ⟨_, _, hw⟩) (.inr ⟨_, _, hd'⟩) he (dispatcher_irq h hd') (by omega)
    exact absurd hd' (hdis _ _ _ _ _ hw)
  · obtain rfl := hinj v w (.inl ⟨_, _, hw⟩) (.inl ⟨_, _, hw'⟩) he he' (by omega)
    have e1 := vecPrio_hw h hw
    have e2 := vecPrio_hw h hw'
    omega

theorem plain_of_app (h : expand tg bits raw = .ok p) {num : Ident → Nat} {e0 : SourceMask.Regs} {d : Nat} {ts : List Ident} (hd : polledBy p d = some ts) (ha : PlainApp tg num p e0 (handlerPrio p d)) : SourceMask.Plain (maskCfg tg num p) e0 d := by
  obtain ⟨-, -, h3, -, -⟩ := C44_one_dispatcher_per_priority h
  obtain ⟨-, hnd, hdis⟩ := C44_dispatchers_not_hardware h
  -- the dispatcher
  have hself : 1 ≤ handlerPrio p d → ∃ w, d = w + 1 ∧ (some w, handlerPrio p d, ts) ∈ p.dispatchers := by
    intro hp
    cases d with
    | zero => exact absurd hp (by show ¬ 1 ≤ 0; omega)
    | succ w =>
      obtain ⟨q, hq⟩ := polled_dispatcher hd
      rcases used_of_prio (p := p) (v := w) hp with ⟨t, hw⟩ | ⟨ts', hd'⟩
      · exact absurd hq (hdis _ _ _ _ _ hw)
      · have e : q = vecPrio p w := h3 _ _ _ _ _ hq hd'
        subst e
        exact ⟨w, rfl, hq⟩
  refine ⟨?_, ?_, ?_, prio_bounded p⟩
  · intro hp
    obtain ⟨w, rfl, hw⟩ := hself hp
    have he := dispatcher_irq h hw
    exact ⟨num w, by simp [maskCfg, bindOf, he], ha.on w (.inr ⟨_, _, hw⟩) he⟩
  · intro n hp hlt
    have hlt : handlerPrio p n < handlerPrio p d := hlt
    obtain ⟨w, rfl, hw⟩ := hself (by omega)
    have hew := dispatcher_irq h hw
    cases n with
    | zero => exact absurd hp (by show ¬ 1 ≤ 0; omega)
    | succ v =>
      have hp : 1 ≤ vecPrio p v := hp
      have hused := used_of_prio hp
      have hev : tg.isException v = false := by
        cases he : tg.isException v with
        | false => rfl
        | true =>
          rcases hused with ⟨t, hh⟩ | ⟨ts', hd'⟩
          · have : vecPrio p v < handlerPrio p (w + 1) := hlt
            have := ha.exc v _ t hh he
            omega
          · rw [dispatcher_irq h hd'] at he; cases he
      exact ⟨num v, num w, by simp [maskCfg, bindOf, hev], by simp [maskCfg, bindOf, hew], ha.same v _ w _ hused hlt hev hw⟩
  · exact appIrqs_unique h ha.inj

/-- what the theorems below say of the tasks of the application: from `s2` to `s3` no task of a lower priority than `q` was started, and one that runs next is inside a critical section it had entered before `s2`, and that blocks the dispatcher `d` of `t` -/
structure MaskTaskPreempts (raw : Raw) (tg : Target) (num : Ident → Nat) (p : Program) (d q : Nat) (s2 : MaskSystem.St) (as : List MaskSystem.Act) (s3 : MaskSystem.St) : Prop where
  starts : ∀ n' t' k' q' args', .irq n' ∈ as → Runs p n' t' → TaskIs raw t' k' q' args' → q ≤ q'
  next : ∀ a ev s4 n' t' k' q' args', MaskSystem.Step (maskSysCfg tg num p) s3 a ev s4 → a.own = true → SourceMask.top s3.m.stack = some n' → Runs p n' t' → TaskIs raw t' k' q' args' → q' < q →
    ∃ x' x below, SourceMask.BlockedAt (maskCfg tg num p) d x' below ∧ SourceMask.BlockedAt (maskCfg tg num p) d x below ∧ SourceMask.SameSection x' x ∧ (x' :: below) <:+ s2.m.stack ∧ (x :: below) <:+ s3.m.stack

theorem maskTaskPreempts (h : expand tg bits raw = .ok p) {num : Ident → Nat} {d : Nat} {ts : List Nat} {s2 s3 : MaskSystem.St} {as : List MaskSystem.Act} (hp : MaskSystem.Preempts (maskSysCfg tg num p) d ts s2 as s3) :
    MaskTaskPreempts raw tg num p d (handlerPrio p d) s2 as s3 := by
  have prio : ∀ {n' t' k' q' args'}, Runs p n' t' → TaskIs raw t' k' q' args' → q' = handlerPrio p n' := by
    intro n' t' k' q' args' hr ht
    obtain ⟨_, _, h2⟩ := runs_prio h hr
    exact (task_unique h ht h2).2
  refine ⟨?_, ?_⟩
  · intro n' t' k' q' args' hm hr ht
    rw [prio hr ht]
    exact hp.starts _ hm
  · intro a ev s4 n' t' k' q' args' hs ho htop hr ht hlt
    rw [prio hr ht] at hlt
    rcases hp.next a ev s4 n' hs ho htop with hle | hb
    · exact absurd hle (by show ¬ handlerPrio p d ≤ handlerPrio p n'; omega)
    · exact hb

/-- **C91** (accepted applications) Take any accepted application without shared and local resources of the same name and a software task `t` of priority `q ≥ 1`, polled by the dispatcher `d`, such that all tasks of lower priority are bound to interrupts of the same register as `d` (none to an exception). When any task's call of `spawn` has been decided to succeed (`s0` to `s1`) and has returned (`s2`): as
long as `t` has not been polled (`s3`), no task of a lower priority than `q` is started, and none makes a step, except inside a critical section it had entered before `s2` and that blocks `d`. -/
theorem C91_app_spawned_preempts_partial (h : expand tg bits raw = .ok p) (hcol : NoCollision raw) {num : Ident → Nat} {e0 : SourceMask.Regs} {t : Ident} {q : Nat} (hpl : PlainApp tg num p e0 q) {args : List TaskArg} (ht : TaskIs raw t .software q args) (hq : 1 ≤ q) {d : Nat} (hr : Runs p d t)
    {st s0 s1 s2 s3 : MaskSystem.St} {as0 as1 as2 : List MaskSystem.Act} {tr0 tr1 tr2 : List (Nat × Executor.Ev)} {a : Nat} (hst : MaskSystem.Start (maskSysCfg tg num p) e0 st) (hx0 : MaskSystem.Exec (maskSysCfg tg num p) st as0 tr0 s0)
    (hok : MaskSystem.Step (maskSysCfg tg num p) s0 (.call d) [(d, .ok t a)] s1) (hx1 : MaskSystem.Exec (maskSysCfg tg num p) s1 as1 tr1 s2) (hret : (s2.ex d).pc (MaskSystem.depth s0.m.stack) = .idle)
    (hx2 : MaskSystem.Exec (maskSysCfg tg num p) s2 as2 tr2 s3) (hno : (d, .polled t) ∉ tr1 ++ tr2) (hbad : ∀ t', (d, .badPoll t') ∉ tr1 ++ tr2) : MaskTaskPreempts raw tg num p d q s2 as2 s3 := by
  obtain ⟨ts, h1, h2⟩ := polledBy_of_runs h ht hr
  obtain ⟨_, _, h3⟩ := runs_prio h hr
  obtain rfl : q = handlerPrio p d := (task_unique h ht h3).2
  exact maskTaskPreempts h (MaskSystem.C91_spawned_preempts_partial (c := maskSysCfg tg num p) (maskCfg_wellFormed h hcol num) (plain_of_app h h1 hpl) rfl hst hx0 h1 h2 hq hok hx1 hret hx2 hno hbad)

/-- **C91** (accepted applications) The same for a waker of the live task `t`, until the task is polled or completes in the poll that was going on. -/
theorem C91_app_woken_preempts_partial (h : expand tg bits raw = .ok p) (hcol : NoCollision raw) {num : Ident → Nat} {e0 : SourceMask.Regs} {t : Ident} {q : Nat} (hpl : PlainApp tg num p e0 q) {args : List TaskArg} (ht : TaskIs raw t .software q args) (hq : 1 ≤ q) {d : Nat} (hr : Runs p d t)
    {st s0 s1 s2 s3 : MaskSystem.St} {as0 as1 as2 : List MaskSystem.Act} {tr0 ev1 tr1 tr2 : List (Nat × Executor.Ev)} (hst : MaskSystem.Start (maskSysCfg tg num p) e0 st) (hx0 : MaskSystem.Exec (maskSysCfg tg num p) st as0 tr0 s0) (hlive : (s0.ex d).running t = true)
    (hcall : MaskSystem.Step (maskSysCfg tg num p) s0 (.wake d t) ev1 s1) (hx1 : MaskSystem.Exec (maskSysCfg tg num p) s1 as1 tr1 s2) (hret : (s2.ex d).pc (MaskSystem.depth s0.m.stack) = .idle) (hx2 : MaskSystem.Exec (maskSysCfg tg num p) s2 as2 tr2 s3)
    (hno : (d, .polled t) ∉ tr1 ++ tr2) (hcomp : (d, .completed t) ∉ tr1 ++ tr2) (hbad : ∀ t', (d, .badPoll t') ∉ tr1 ++ tr2) : MaskTaskPreempts raw tg num p d q s2 as2 s3 := by
  obtain ⟨ts, h1, h2⟩ := polledBy_of_runs h ht hr
  obtain ⟨_, _, h3⟩ := runs_prio h hr
  obtain rfl : q = handlerPrio p d := (task_unique h ht h3).2
  exact maskTaskPreempts h (MaskSystem.C91_woken_preempts_partial (c := maskSysCfg tg num p) (maskCfg_wellFormed h hcol num) (plain_of_app h h1 hpl) rfl hst hx0 h1 hq hlive hcall hx1 hret hx2 hno hcomp hbad)

/-! ### Example: the application `exRaw`, whose vectors 50, 51, 60, 61 have the interrupt numbers 0, 1, 10, 11; idle spawns task 23 of priority 3 -/

def exNum (v : Ident) : Nat := v - 50

def exOn : SourceMask.Regs := fun _ => 0xffffffff#32

theorem exUsed {v : Ident} (h : UsedVec exProg v) : v = 50 ∨ v = 51 ∨ v = 60 ∨ v = 61 := by
  rcases h with ⟨q, t, h⟩ | ⟨q, ts, h⟩
  · simp [exProg] at h; grind
  · simp [exProg] at h; grind

theorem exPlain (q : Nat) : PlainApp exTarget exNum exProg exOn q := by
  refine ⟨?_, ?_, ?_, ?_⟩
  · intro v w hv hw _ _ e
    rcases exUsed hv with rfl | rfl | rfl | rfl <;> rcases exUsed hw with rfl | rfl | rfl | rfl <;> first | rfl | (simp only [exNum] at e; cases e)
  · intro v q' w ts hv _ _ hw
    rcases exUsed (hv.elim (fun ⟨t, h⟩ => .inl ⟨_, _, h⟩) (fun ⟨ts, h⟩ => .inr ⟨_, _, h⟩)) with rfl | rfl | rfl | rfl <;> rcases exUsed (.inr ⟨_, _, hw⟩) with rfl | rfl | rfl | rfl <;> rfl
  · intro v q' t hw he
    rcases exUsed (.inl ⟨_, _, hw⟩) with rfl | rfl | rfl | rfl <;> cases he
  · intro v hv _; rcases exUsed hv with rfl | rfl | rfl | rfl <;> decide

/-- more urgent tasks may be bound to interrupts of other registers: the hardware tasks (priority 2) to interrupts 60 and 61 -/
example : PlainApp exTarget (fun v => if v < 60 then v - 50 else v) exProg exOn 1 := by
  refine ⟨?_, ?_, ?_, ?_⟩
  · intro v w hv hw _ _ e
    rcases exUsed hv with rfl | rfl | rfl | rfl <;> rcases exUsed hw with rfl | rfl | rfl | rfl <;> first | rfl | (simp at e)
  · intro v q' w ts hv hlt _ _
    exfalso
    rcases hv with ⟨t, h⟩ | ⟨ts, h⟩ <;> simp [exProg] at h <;> omega
  · intro v q' t hw he
    rcases exUsed (.inl ⟨_, _, hw⟩) with rfl | rfl | rfl | rfl <;> cases he
  · intro v hv _; rcases exUsed hv with rfl | rfl | rfl | rfl <;> decide

def exSt : MaskSystem.St := { m := SourceMask.start 0 exOn, pend := fun _ => false, ex := fun _ => Executor.init }

theorem exSt_start : MaskSystem.Start (maskSysCfg exTarget exNum exProg) exOn exSt := ⟨rfl, fun _ _ _ => ⟨[], [], by simp, rfl⟩, fun _ _ => rfl⟩

theorem exSmall : MaskSystem.Small (maskSysCfg exTarget exNum exProg) 63 := by
  have hv : ∀ v : Nat, 62 ≤ v → ¬ UsedVec exProg v := by
    intro v h1 h2
    rcases exUsed h2 with e | e | e | e <;> (have e : (v : Nat) = _ := e; subst e; omega)
  refine ⟨fun n hn => ?_, fun n hn => ?_⟩
  · cases n with
    | zero => rfl
    | succ v =>
      apply Nat.eq_zero_of_not_pos
      intro hp
      rcases used_of_prio (p := exProg) (v := v) hp with ⟨t, h⟩ | ⟨ts, h⟩
      · exact hv v (by omega) (.inl ⟨_, _, h⟩)
      · exact hv v (by omega) (.inr ⟨_, _, h⟩)
  · cases n with
    | zero => omega
    | succ v =>
      cases hp : (maskSysCfg exTarget exNum exProg).tasks (v + 1) with
      | none => rfl
      | some ts =>
        obtain ⟨q, hd⟩ : ∃ q, (some v, q, ts) ∈ exProg.dispatchers := by
          simp only [maskSysCfg, polledBy, Option.map_eq_some_iff] at hp
          obtain ⟨⟨o, q, ts'⟩, hf, rfl⟩ := hp
          have hx := List.find?_some hf
          have hx : o = some v := of_decide_eq_true hx
          subst hx
          exact ⟨q, List.mem_of_find?_eq_some hf⟩
        exact absurd (.inr ⟨q, ts, hd⟩) (hv v (by omega))

/-- the call of `spawn` returns and the dispatcher is started at once -/
def exScenario : Bool :=
  match MaskSystem.run (maskSysCfg exTarget exNum exProg) (fun _ _ => false) 63 exSt [.spawn 52 23 5] with
  | some (_, s0) =>
    match MaskSystem.next (maskSysCfg exTarget exNum exProg) (fun _ _ => false) 63 s0 (.call 52) with
    | some (ev, s1) =>
      (match ev with | [(52, .ok 23 5)] => true | _ => false) &&
        match MaskSystem.run (maskSysCfg exTarget exNum exProg) (fun _ _ => false) 63 s1 [.call 52, .call 52, .call 52] with
        | some (tr1, s2) =>
          tr1.isEmpty && decide ((s2.ex 52).pc (MaskSystem.depth s0.m.stack) = .idle) && (MaskSystem.run (maskSysCfg exTarget exNum exProg) (fun _ _ => false) 63 s2 [.irq 52]).isSome
        | none => false
    | none => false
  | none => false

/-- the hypotheses of `C91_app_spawned_preempts_partial` are met: the call of `spawn` has returned, and the task has not been polled; the dispatcher is started -/
example : Runs exProg 52 23 ∧ PlainApp exTarget exNum exProg exOn 3 ∧ ∃ s0 s1 s2 s3 as0 tr0 as1 tr3, MaskSystem.Start (maskSysCfg exTarget exNum exProg) exOn exSt ∧ MaskSystem.Exec (maskSysCfg exTarget exNum exProg) exSt as0 tr0 s0 ∧
    MaskSystem.Step (maskSysCfg exTarget exNum exProg) s0 (.call 52) [(52, .ok 23 5)] s1 ∧ MaskSystem.Exec (maskSysCfg exTarget exNum exProg) s1 as1 [] s2 ∧ (s2.ex 52).pc (MaskSystem.depth s0.m.stack) = .idle ∧
    MaskSystem.Exec (maskSysCfg exTarget exNum exProg) s2 [.irq 52] tr3 s3 := by
  have hs : exScenario = true := by decide +kernel
  refine ⟨.inr ⟨3, [23, 24], by decide, by decide⟩, exPlain 3, ?_⟩
  unfold exScenario at hs
  have hu : ∀ t r, (fun _ _ => false : Nat → Nat → Bool) t r = true → (maskSysCfg exTarget exNum exProg).sm.uses t r := fun _ _ h => by cases h
  split at hs
  · next tr0 s0 h0 =>
    obtain ⟨k0, i0⟩ := MaskSystem.run_sound hu exSmall _ (fun _ _ _ => rfl) h0
    split at hs
    · next ev s1 h1 =>
      rw [Bool.and_eq_true] at hs
      obtain ⟨hev, hs⟩ := hs
      have hst := MaskSystem.next_sound hu exSmall i0 h1
      have i1 := MaskSystem.idle_step i0 hst
      split at hs
      · next tr1 s2 h2 =>
        obtain ⟨k2, i2⟩ := MaskSystem.run_sound hu exSmall _ i1 h2
        simp only [Bool.and_eq_true, List.isEmpty_iff, decide_eq_true_eq] at hs
        obtain ⟨⟨e1, hp⟩, h⟩ := hs
        obtain ⟨⟨tr3, s3⟩, h3⟩ := Option.isSome_iff_exists.1 h
        obtain ⟨k3, -⟩ := MaskSystem.run_sound hu exSmall _ i2 h3
        subst e1
        split at hev
        · exact ⟨s0, s1, s2, s3, _, tr0, _, tr3, exSt_start, k0, hst, k2, hp, k3⟩
        · cases hev
      · cases hs
    · cases hs
  · cases hs

end Verif.EndToEnd
