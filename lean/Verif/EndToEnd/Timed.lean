import Verif.EndToEnd.System
import Verif.Timed.Run

/-!
# C83 for accepted applications with a monotonic
-/

namespace Verif.EndToEnd

open Verif.Analysis

variable {tg : Target} {bits : Nat} {raw : Raw} {p : Program}

/-- The whole system of `Verif.Timed` for a generated program and a monotonic with timer `tb` on interrupt vector `v`; `own`: the tasks awaiting the delays. The monotonic gives its interrupt the priority of `set_monotonic_prio` (`rtic-monotonics/src/lib.rs:134-156`), computed from the priorities of the hardware tasks
(`rtic-macros/src/analyze.rs:60-65`). -/
def timedCfg (bits : Nat) (p : Program) (v : Ident) (tb : TimerQueue.Cfg) (own : Nat → Nat) : Timed.Cfg where
  sys := { srp := { appCfg bits p with prio := fun n => if n = v + 1 then Backends.limitedPrio p.asyncMax bits else handlerPrio p n }, tasks := polledBy p }
  tb := tb
  th := v + 1
  own := own

/-- no task of the application uses the interrupt of the monotonic -/
def FreeVector (p : Program) (v : Ident) : Prop := (∀ q t, (v, q, t) ∉ p.hwHandlers) ∧ ∀ q ts, (some v, q, ts) ∉ p.dispatchers

theorem free_runs {v : Ident} (hv : FreeVector p v) (t : Ident) : ¬ Runs p (v + 1) t := by
  rintro (⟨q, h⟩ | ⟨q, ts, h, -⟩)
  · exact hv.1 q t h
  · exact hv.2 q ts h

theorem polledBy_mem {n : Nat} {ts : List Ident} (h : polledBy p n = some ts) : ∃ q, (vecOf n, q, ts) ∈ p.dispatchers := by
  unfold polledBy at h
  cases hf : p.dispatchers.find? (fun x => x.1 = vecOf n) with
  | none => rw [hf] at h; cases h
  | some x =>
    rw [hf] at h
    obtain ⟨o, q, ts'⟩ := x
    cases h
    have hx := List.find?_some hf
    simp only [decide_eq_true_eq] at hx
    subst hx
    exact ⟨q, List.mem_of_find?_eq_some hf⟩

theorem dispatcher_task (h : expand tg bits raw = .ok p) {o : Option Ident} {q : Nat} {ts : List Ident} {t : Ident} (hd : (o, q, ts) ∈ p.dispatchers) (ht : t ∈ ts) : ∃ args, TaskIs raw t .software q args := by
  obtain ⟨app, base, an, he⟩ := expand_ok h
  have hg := codegen_ok he.codegen
  obtain ⟨-, rfl, -⟩ := (mem_dispatchers hg).mp hd
  obtain ⟨st, hst, rfl⟩ := mem_channelTasks.mp ht
  obtain ⟨args, ha, -⟩ := he.says.sw _ _ hst
  exact ⟨args, ha⟩

theorem hw_prios (h : expand tg bits raw = .ok p) : ∀ q ∈ p.hwHandlers.map (·.2.1), q ≤ 2 ^ bits := by
  intro q hq
  obtain ⟨⟨v, q', t⟩, hm, rfl⟩ := List.mem_map.1 hq
  have := handler_prio_le h (v + 1)
  simpa only [handlerPrio, vecPrio_hw h hm] using this

theorem limitedPrio_le (l : Option Nat) (bits : Nat) : 1 ≤ Backends.limitedPrio l bits ∧ Backends.limitedPrio l bits ≤ 2 ^ bits := by
  have := Nat.two_pow_pos bits
  simp only [Backends.limitedPrio]
  omega

/-- **C55** (accepted applications) The timer interrupt of a monotonic is strictly below every hardware task, unless one has priority 1, and not below any software task that is below all hardware tasks. -/
theorem C55_app_monotonic_prio (h : expand tg bits raw = .ok p) : 1 ≤ Backends.limitedPrio p.asyncMax bits ∧ Backends.limitedPrio p.asyncMax bits ≤ 2 ^ bits ∧
    ((∀ t b args, ¬ TaskIs raw t (.hardware b) 1 args) → ∀ t b q args, TaskIs raw t (.hardware b) q args → Backends.limitedPrio p.asyncMax bits < q) ∧
    ∀ q, q ≤ 2 ^ bits → (∀ t b q' args, TaskIs raw t (.hardware b) q' args → q < q') → q ≤ Backends.limitedPrio p.asyncMax bits := by
  obtain ⟨hn, hv⟩ := C55_async_limit h
  refine ⟨(limitedPrio_le _ _).1, (limitedPrio_le _ _).2, ?_, ?_⟩
  · intro h1 t b q args ht
    cases hm : p.asyncMax with
    | none => exact absurd ht (hn hm _ _ _ _)
    | some v =>
      obtain ⟨ha, t', b', args', hb⟩ := hv v hm
      have := ha _ _ _ _ ht
      have h0 : v ≠ 0 := by rintro rfl; exact h1 _ _ _ hb
      simp only [Backends.limitedPrio, Backends.asyncMaxLogicalPrio, Option.getD_some]
      omega
  · intro q hq hlt
    cases hm : p.asyncMax with
    | none => simp only [Backends.limitedPrio, Backends.asyncMaxLogicalPrio, Option.getD_none]; omega
    | some v =>
      obtain ⟨ha, t', b', args', hb⟩ := hv v hm
      have := hlt _ _ _ _ hb
      simp only [Backends.limitedPrio, Backends.asyncMaxLogicalPrio, Option.getD_some]
      omega

theorem timedCfg_wellFormed (h : expand tg bits raw = .ok p) (hb : bits ≤ 7) (hcol : NoCollision raw) {v : Ident} (hv : FreeVector p v) {tb : TimerQueue.Cfg} (htb : 0 < tb.w) (own : Nat → Nat) : Timed.WellFormed (timedCfg bits p v tb own) where
  srp := by
    have hw := appCfg_wellFormed h hb hcol
    refine ⟨hw.bits, fun n => ?_, fun n r hu => ?_, hw.ceilMax⟩
    · show (if n = v + 1 then _ else _) ≤ _
      split
      · exact (limitedPrio_le _ _).2
      · exact hw.prio n
    · show (if n = v + 1 then _ else _) ≤ _
      have hn : n ≠ v + 1 := by
        rintro rfl
        obtain ⟨c, -, hr, -⟩ := hu
        exact free_runs hv _ hr
      rw [if_neg hn]
      exact hw.ceil n r hu
  thread := by
    show (if 0 = v + 1 then Backends.limitedPrio p.asyncMax bits else handlerPrio p 0) = 0
    rw [if_neg (Ne.symm (Nat.succ_ne_zero v))]
    rfl
  th := by
    show polledBy p (v + 1) = none
    cases hp : polledBy p (v + 1) with
    | none => rfl
    | some ts => obtain ⟨q, hm⟩ := polledBy_mem hp; exact absurd hm (hv.2 _ _)
  prio1 := by
    show 1 ≤ (if v + 1 = v + 1 then _ else _)
    rw [if_pos rfl]
    exact (limitedPrio_le _ _).1
  uniq := by
    intro d ts d' ts' t hd hd' ht ht'
    obtain ⟨q, hm⟩ := polledBy_mem hd
    obtain ⟨q', hm'⟩ := polledBy_mem hd'
    obtain ⟨args, ha⟩ := dispatcher_task h hm ht
    obtain ⟨args', ha'⟩ := dispatcher_task h hm' ht'
    obtain rfl := (task_unique h ha ha').2
    have := ((C44_one_dispatcher_per_priority h).2.1 _ _ _ _ _ hm hm').1
    cases d <;> cases d' <;> simp_all [vecOf]
  width := htb

/-- **C83** (accepted applications) Take any accepted application without shared and local resources of the same name, with a monotonic on an interrupt the application does not use; a software task `t` of priority `q ≥ 1` such that all hardware tasks have higher priorities; and a delay `i` of `t`. Let `s2` be a moment at which `t` waits
for the delay, and the delay is overdue, and let this be so up to `s3`, without code of lower priority being preempted between inserting its delay as the earliest one and pending the timer interrupt. Then from `s2` to `s3` no task of a lower priority than `q` is started; and one that runs next is inside a critical section it had
entered before `s2`, and that blocks priority `q`. -/
theorem C83_app_expired_runs_first_partial (h : expand tg bits raw = .ok p) (hb : bits ≤ 7) (hcol : NoCollision raw) {v : Ident} (hv : FreeVector p v) {tb : TimerQueue.Cfg} (htb : 0 < tb.w) {own : Nat → Nat} {t : Ident} {q : Nat} {args : List TaskArg} (ht : TaskIs raw t .software q args) (hq : 1 ≤ q)
    (hlow : ∀ t' v' q' args', TaskIs raw t' (.hardware v') q' args' → q < q') {d : Nat} (hr : Runs p d t) {st s2 s3 : Timed.St} {as0 as : List Timed.Act} {tr0 : List (Nat × Executor.Ev)} (hst : Timed.Start (timedCfg bits p v tb own) st)
    (hx : Timed.Exec (timedCfg bits p v tb own) st as0 tr0 s2) {i : Nat} (ho : own i = t)
    (hw : Timed.While (timedCfg bits p v tb own) (fun s => s.waits i = true ∧ Timed.Overdue (timedCfg bits p v tb own) i s ∧ ¬ Timed.HeldUp (timedCfg bits p v tb own) q s) s2 as s3) :
    (∀ n' t' k' q' args', .sys (.irq n') ∈ as → Runs p n' t' → TaskIs raw t' k' q' args' → q ≤ q') ∧
    (∀ a ev s4 n' t' k' q' args', Timed.Step (timedCfg bits p v tb own) s3 a ev s4 → a.own = true → Srp.top s3.y.m.stack = some n' → Runs p n' t' → TaskIs raw t' k' q' args' → q' < q →
      ∃ x below, Srp.BlockedAt (timedCfg bits p v tb own).sys.srp q x below ∧ (x :: below) <:+ s2.y.m.stack ∧ (x :: below) <:+ s3.y.m.stack) := by
  obtain ⟨ts, h1, h2⟩ := polledBy_of_runs h ht hr
  obtain ⟨_, _, h3⟩ := runs_prio h hr
  have hqd : q = handlerPrio p d := (task_unique h ht h3).2
  have prio : ∀ n t', Runs p n t' → (timedCfg bits p v tb own).sys.srp.prio n = handlerPrio p n := by
    intro n t' hr'
    have hn : n ≠ v + 1 := by rintro rfl; exact free_runs hv _ hr'
    show (if n = v + 1 then _ else _) = _
    rw [if_neg hn]
  have hpd : (timedCfg bits p v tb own).sys.srp.prio d = q := by rw [prio d t hr, hqd]
  have hpt : (timedCfg bits p v tb own).sys.srp.prio d ≤ (timedCfg bits p v tb own).sys.srp.prio (timedCfg bits p v tb own).th := by
    rw [hpd]
    show q ≤ (if v + 1 = v + 1 then _ else _)
    rw [if_pos rfl]
    exact (C55_app_monotonic_prio h).2.2.2 q (by rw [hqd]; exact handler_prio_le h d) hlow
  have hC := Timed.C83_expired_runs_first_partial (timedCfg_wellFormed h hb hcol hv htb own) (i := i) (d := d) (ts := ts) hst hx h1 (by show own i ∈ ts; rw [ho]; exact h2) (by rw [hpd]; exact hq) hpt (by rw [hpd]; exact hw)
  rw [hpd] at hC
  have tp : ∀ {n' t' k' q' args'}, Runs p n' t' → TaskIs raw t' k' q' args' → (timedCfg bits p v tb own).sys.srp.prio n' = q' := by
    intro n' t' k' q' args' hr' ht'
    obtain ⟨_, _, g⟩ := runs_prio h hr'
    rw [prio n' t' hr']
    exact (task_unique h g ht').2
  refine ⟨?_, ?_⟩
  · intro n' t' k' q' args' hm hr' ht'
    have := hC.2 _ n' hm rfl
    rwa [tp hr' ht'] at this
  · intro a ev s4 n' t' k' q' args' hs hown htop hr' ht' hlt
    rcases hC.1 a ev s4 n' hs hown htop with hle | hb'
    · rw [tp hr' ht'] at hle; omega
    · exact hb'

/-! ### Example: in the application `exRaw`, with a 32-bit timer on vector 70, `init` spawns task 22 (priority 1; handler 51), which awaits a delay until time 20 -/

def exTimed : Timed.Cfg := timedCfg 4 exProg 70 { w := 32, noop := true, sl := 0 } (fun i => if i = 0 then 22 else 0)

theorem exTimed_free : FreeVector exProg 70 := by
  constructor
  · intro q t h; simp [exProg] at h
  · intro q ts h; simp [exProg] at h

theorem exTimed_tasks {d : Nat} {ts : List Nat} (h : exTimed.sys.tasks d = some ts) : (d = 51 ∧ ts = [22]) ∨ (d = 52 ∧ ts = [23, 24]) := by
  obtain ⟨q, hm⟩ := polledBy_mem (p := exProg) (n := d) h
  simp only [exProg, List.mem_cons, Prod.mk.injEq, List.not_mem_nil, or_false] at hm
  rcases hm with ⟨h1, -, h2⟩ | ⟨h1, -, h2⟩ <;> cases d <;> simp_all [vecOf]

theorem exTimed_small : Timed.Small exTimed 72 1 where
  sys := by
    constructor
    · intro n hn
      show (if n = 71 then _ else handlerPrio exProg n) = 0
      rw [if_neg (by omega)]
      cases n with
      | zero => rfl
      | succ v =>
        have h1 : ¬ 60 = v := by omega
        have h2 : ¬ 61 = v := by omega
        have h3 : ¬ 50 = v := by omega
        have h4 : ¬ 51 = v := by omega
        simp [handlerPrio, vecPrio, exProg, List.find?, h1, h2, h3, h4]
    · intro n hn
      cases hp : exTimed.sys.tasks n with
      | none => rfl
      | some ts => rcases exTimed_tasks hp with ⟨rfl, -⟩ | ⟨rfl, -⟩ <;> omega
  own := by
    intro i hi d ts h
    have : exTimed.own i = 0 := by show (if i = 0 then _ else _) = _; rw [if_neg (by omega)]
    rw [this]
    rcases exTimed_tasks h with ⟨-, rfl⟩ | ⟨-, rfl⟩ <;> decide

theorem exTimed_start : Timed.Start exTimed (Timed.demoStart 51 22) where
  m := rfl
  calls := fun d' ts h => by
    have hz : exTimed.sys.exec d' ts = { ts := ts, zero := false } := by
      rcases exTimed_tasks h with ⟨rfl, rfl⟩ | ⟨rfl, rfl⟩ <;> rfl
    rw [hz]
    rcases exTimed_tasks h with ⟨rfl, rfl⟩ | ⟨rfl, rfl⟩
    · obtain ⟨tr, hx⟩ := Timed.spawned_eq [22] 22 List.mem_cons_self
      refine ⟨Timed.initSpawn 22, tr, ?_, by simpa [Timed.demoStart] using hx⟩
      intro a ha
      simp only [Timed.initSpawn, List.mem_cons, List.not_mem_nil, or_false] at ha
      rcases ha with rfl | rfl | rfl | rfl | rfl <;> exact ⟨rfl, fun _ _ => ⟨by simp, by simp⟩⟩
    · exact ⟨[], [], by simp, rfl⟩
  over := fun d' i => by
    simp only [Timed.demoStart]
    split
    · exact Timed.spawned_idle _ _ _ List.mem_cons_self
    · rfl
  tq := rfl
  line := rfl
  call := rfl
  waits := fun _ => rfl

def exExpiry : List Timed.Act :=
  [.sys (.irq 51), .sys (.code .readInitial), .sys (.disp 51 false), .sys (.disp 51 false), .sys (.disp 51 false), .op (.create 0 20), .op (.poll 0 22), .op (.ins 0), .op (.pend 0), .sys (.disp 51 false), .sys (.disp 51 false), .sys (.code .finish), .sys (.code .ret),
   .enter, .sys (.code .readInitial), .hgo, .hgo, .hgo, .hgo, .arm 20, .hgo, .sys (.code .finish), .sys (.code .ret)] ++ List.replicate 19 (.clock false false false) ++ [.clock true false false]

def exExpired (s : Timed.St) : Bool := s.waits 0 && decide (s.tq.inst 0 ≤ s.tq.now) && decide (s.tq.pc 0 ≠ .p2) && decide (s.y.m.stack = [.body 0 none]) && (Timed.next exTimed 72 1 s .enter).isSome

theorem exExpiry_run : (match Timed.run exTimed 72 1 (Timed.demoStart 51 22) exExpiry with | some (_, s) => exExpired s | none => false) = true := by decide +kernel

theorem exExpiry_others (j : Nat) (hj : j ≠ 0) : ∀ a ∈ exExpiry, Timed.others j a = true := by
  intro a ha
  simp only [exExpiry, List.mem_append, List.mem_cons, List.not_mem_nil, or_false, List.mem_replicate] at ha
  simp only [or_assoc] at ha
  repeat' (rcases ha with rfl | ha)
  all_goals first | rfl | (simp [Timed.others, Timed.opOf]; omega) | skip
  rcases ha with ha | ha
  · rw [ha.2]; rfl
  · rw [ha]; rfl

/-- the hypotheses of `C83_app_expired_runs_first_partial` are met: idle runs when the delay expires; the timer interrupt is taken -/
example : Runs exProg 51 22 ∧ FreeVector exProg 70 ∧ exTimed.sys.srp.prio 71 = 1 ∧ ∃ s2 s3 as0 tr0, Timed.Start exTimed (Timed.demoStart 51 22) ∧ Timed.Exec exTimed (Timed.demoStart 51 22) as0 tr0 s2 ∧ Srp.top s2.y.m.stack = some 0 ∧ exTimed.own 0 = 22 ∧
    Timed.While exTimed (fun s => s.waits 0 = true ∧ Timed.Overdue exTimed 0 s ∧ ¬ Timed.HeldUp exTimed 1 s) s2 [] s2 ∧ Timed.Step exTimed s2 .enter [] s3 := by
  refine ⟨.inr ⟨1, [22], by decide, by decide⟩, exTimed_free, by decide, ?_⟩
  have h := exExpiry_run
  split at h
  · next tr s hr =>
    simp only [exExpired, Bool.and_eq_true, decide_eq_true_eq, Option.isSome_iff_exists] at h
    obtain ⟨⟨⟨⟨h1, h2⟩, h3⟩, h4⟩, ⟨ev, s3⟩, hn⟩ := h
    have h0 : System.Idle exTimed.sys (Timed.demoStart 51 22).y := fun d' _ i => exTimed_start.over d' i
    have hx := Timed.run_sound exTimed_small h0 hr
    have hs := Timed.next_sound exTimed_small (Timed.idle_exec h0 hx) hn
    have hev : ev = [] := by cases hs; rfl
    subst hev
    refine ⟨s, s3, _, tr, exTimed_start, hx, by rw [h4]; rfl, rfl, .nil ⟨h1, h2, ?_⟩, hs⟩
    rintro ⟨j, hj, -⟩
    by_cases e : j = 0
    · subst e; exact h3 hj
    · rw [Timed.pc_exec hx (exExpiry_others j e)] at hj; cases hj
  · cases h

end Verif.EndToEnd
