import Verif.EndToEnd.MaskSystem
import Verif.EndToEnd.Timed
import Verif.MaskTimed.Run

/-!
# C105 for accepted applications with a monotonic, on targets that mask interrupt sources
-/

namespace Verif.EndToEnd

open Verif.Analysis

variable {tg : Target} {bits : Nat} {raw : Raw} {p : Program}

/-- The whole system of `Verif.MaskTimed` for a generated program and a monotonic with timer `tb` on interrupt vector `v`; `num`: interrupt numbers; `own`: the tasks awaiting the delays. The monotonic gives its interrupt the priority of `set_monotonic_prio` (`rtic-monotonics/src/lib.rs:134-156`), computed from the
priorities of the hardware tasks (`rtic-macros/src/analyze.rs:60-65`). The masks are those of the application (`rtic-macros/src/codegen/bindings/cortex.rs:65-164`), which knows nothing of the interrupt of the monotonic. -/
def maskTimedCfg (tg : Target) (bits : Nat) (num : Ident → Nat) (p : Program) (v : Ident) (tb : TimerQueue.Cfg) (own : Nat → Nat) : MaskTimed.Cfg where
  sys :=
    { sm := { maskCfg tg num p with prio := fun n => if n = v + 1 then Backends.limitedPrio p.asyncMax bits else handlerPrio p n, bind := fun n => if n = v + 1 then none else bindOf tg num n }
      tasks := polledBy p }
  tb := tb
  th := v + 1
  own := own

theorem free_unpolled {v : Ident} (hv : FreeVector p v) : polledBy p (v + 1) = none := by
  cases hp : polledBy p (v + 1) with
  | none => rfl
  | some ts => obtain ⟨q, hm⟩ := polledBy_mem hp; exact absurd hm (hv.2 _ _)

theorem maskTimedCfg_wellFormed (h : expand tg bits raw = .ok p) (hcol : NoCollision raw) (num : Ident → Nat) {v : Ident} (hv : FreeVector p v) {tb : TimerQueue.Cfg} (htb : 0 < tb.w) (own : Nat → Nat) : MaskTimed.WellFormed (maskTimedCfg tg bits num p v tb own) where
  sm := by
    have hw := maskCfg_wellFormed h hcol num
    refine ⟨hw.masks, fun n m hb hp => ?_, fun n r hu => ?_⟩
    · have hn : n ≠ v + 1 := by
        rintro rfl
        have hb : (if v + 1 = v + 1 then none else bindOf tg num (v + 1)) = some m := hb
        rw [if_pos rfl] at hb; cases hb
      have hb : (if n = v + 1 then none else bindOf tg num n) = some m := hb
      have hp : 1 ≤ (if n = v + 1 then _ else handlerPrio p n) := hp
      rw [if_neg hn] at hb hp
      show ((if n = v + 1 then _ else handlerPrio p n), m) ∈ _
      rw [if_neg hn]
      exact hw.listed n m hb hp
    · show (if n = v + 1 then _ else _) ≤ _
      have hn : n ≠ v + 1 := by
        rintro rfl
        obtain ⟨c, -, hr, -⟩ := hu
        exact free_runs hv _ hr
      rw [if_neg hn]
      exact hw.ceil n r hu
  thread := by
    show (if 0 = v + 1 then Backends.limitedPrio p.asyncMax bits else handlerPrio p 0) = 0
    rw [if_neg (Ne.symm (Nat.succ_ne_zero v))]
    rfl
  th := free_unpolled hv
  unmasked := if_pos rfl
  prio1 := by
    show 1 ≤ (if v + 1 = v + 1 then _ else _)
    rw [if_pos rfl]
    exact (limitedPrio_le _ _).1
  uniq := by
    intro d ts d' ts' t hd hd' ht ht'
    obtain ⟨q, hm⟩ := polledBy_mem hd
    obtain ⟨q', hm'⟩ := polledBy_mem hd'
    obtain ⟨args, ha⟩ := dispatcher_task h hm ht
    obtain ⟨args', ha'⟩ := dispatcher_task h hm' ht'
    obtain rfl := (task_unique h ha ha').2
    have := ((C44_one_dispatcher_per_priority h).2.1 _ _ _ _ _ hm hm').1
    cases d <;> cases d' <;> simp_all [vecOf]
  width := htb

theorem maskTimed_plain (h : expand tg bits raw = .ok p) {num : Ident → Nat} {e0 : SourceMask.Regs} {d : Nat} {ts : List Ident} (hd : polledBy p d = some ts) (ha : PlainApp tg num p e0 (handlerPrio p d)) {v : Ident} (hv : FreeVector p v) {tb : TimerQueue.Cfg} (own : Nat → Nat)
    (hpt : (maskTimedCfg tg bits num p v tb own).sys.sm.prio d ≤ (maskTimedCfg tg bits num p v tb own).sys.sm.prio (maskTimedCfg tg bits num p v tb own).th) : SourceMask.Plain (maskTimedCfg tg bits num p v tb own).sys.sm e0 d := by
  have hpl := plain_of_app h hd ha
  have hne : d ≠ v + 1 := by rintro rfl; rw [free_unpolled hv] at hd; cases hd
  have prio : ∀ n, n ≠ v + 1 → (maskTimedCfg tg bits num p v tb own).sys.sm.prio n = handlerPrio p n := fun n hn => if_neg hn
  have bind : ∀ n, n ≠ v + 1 → (maskTimedCfg tg bits num p v tb own).sys.sm.bind n = bindOf tg num n := fun n hn => if_neg hn
  refine ⟨?_, ?_, hpl.uniq, ?_⟩
  · intro hp
    rw [prio d hne] at hp
    rw [bind d hne]
    exact hpl.self hp
  · intro n hn hlt
    by_cases e : n = v + 1
    · subst e; exact absurd hpt (Nat.not_le.2 hlt)
    · rw [prio n e] at hn hlt
      rw [prio d hne] at hlt
      rw [bind n e, bind d hne]
      exact hpl.same n hn hlt
  · obtain ⟨b, hb⟩ := hpl.bounded
    refine ⟨max b (2 ^ bits), fun n => ?_⟩
    by_cases e : n = v + 1
    · subst e
      show (if v + 1 = v + 1 then _ else _) ≤ _
      rw [if_pos rfl]
      exact Nat.le_trans (limitedPrio_le _ _).2 (Nat.le_max_right _ _)
    · rw [prio n e]; exact Nat.le_trans (hb n) (Nat.le_max_left _ _)

/-- **C105** (accepted applications) Take any accepted application without shared and local resources of the same name, with a monotonic on an interrupt the application does not use; a software task `t` of priority `q ≥ 1` such that all hardware tasks have higher priorities and the dispatchers of lower priority are bound to interrupts of the same register as the dispatcher `d` of `t`; and a delay `i` of `t`. Let `s2` be a moment at which `t` waits
for the delay, and the delay is overdue, and let this be so up to `s3`, without code of lower priority being preempted between inserting its delay as the earliest one and pending the timer interrupt. Then from `s2` to `s3` no task of a lower priority than `q` is started; and one that runs next is inside a critical section it had
entered before `s2`, and that blocks `d`. -/
theorem C105_app_expired_runs_first_partial (h : expand tg bits raw = .ok p) (hcol : NoCollision raw) {v : Ident} (hv : FreeVector p v) {tb : TimerQueue.Cfg} (htb : 0 < tb.w) {own : Nat → Nat} {t : Ident} {q : Nat} {args : List TaskArg} {num : Ident → Nat} {e0 : SourceMask.Regs} (hpl : PlainApp tg num p e0 q) (ht : TaskIs raw t .software q args) (hq : 1 ≤ q)
    (hlow : ∀ t' v' q' args', TaskIs raw t' (.hardware v') q' args' → q < q') {d : Nat} (hr : Runs p d t) {st s2 s3 : MaskTimed.St} {as0 as : List MaskTimed.Act} {tr0 : List (Nat × Executor.Ev)} (hst : MaskTimed.Start (maskTimedCfg tg bits num p v tb own) e0 st)
    (hx : MaskTimed.Exec (maskTimedCfg tg bits num p v tb own) st as0 tr0 s2) {i : Nat} (ho : own i = t)
    (hw : MaskTimed.While (maskTimedCfg tg bits num p v tb own) (fun s => s.waits i = true ∧ MaskTimed.Overdue (maskTimedCfg tg bits num p v tb own) i s ∧ ¬ MaskTimed.HeldUp (maskTimedCfg tg bits num p v tb own) q s) s2 as s3) :
    (∀ n' t' k' q' args', .sys (.irq n') ∈ as → Runs p n' t' → TaskIs raw t' k' q' args' → q ≤ q') ∧
    (∀ a ev s4 n' t' k' q' args', MaskTimed.Step (maskTimedCfg tg bits num p v tb own) s3 a ev s4 → a.own = true → SourceMask.top s3.y.m.stack = some n' → Runs p n' t' → TaskIs raw t' k' q' args' → q' < q →
      ∃ x' x below, SourceMask.BlockedAt (maskTimedCfg tg bits num p v tb own).sys.sm d x' below ∧ SourceMask.BlockedAt (maskTimedCfg tg bits num p v tb own).sys.sm d x below ∧ SourceMask.SameSection x' x ∧ (x' :: below) <:+ s2.y.m.stack ∧ (x :: below) <:+ s3.y.m.stack) := by
  obtain ⟨ts, h1, h2⟩ := polledBy_of_runs h ht hr
  obtain ⟨_, _, h3⟩ := runs_prio h hr
  have hqd : q = handlerPrio p d := (task_unique h ht h3).2
  have prio : ∀ n t', Runs p n t' → (maskTimedCfg tg bits num p v tb own).sys.sm.prio n = handlerPrio p n := by
    intro n t' hr'
    have hn : n ≠ v + 1 := by rintro rfl; exact free_runs hv _ hr'
    show (if n = v + 1 then _ else _) = _
    rw [if_neg hn]
  have hpd : (maskTimedCfg tg bits num p v tb own).sys.sm.prio d = q := by rw [prio d t hr, hqd]
  have hpt : (maskTimedCfg tg bits num p v tb own).sys.sm.prio d ≤ (maskTimedCfg tg bits num p v tb own).sys.sm.prio (maskTimedCfg tg bits num p v tb own).th := by
    rw [hpd]
    show q ≤ (if v + 1 = v + 1 then _ else _)
    rw [if_pos rfl]
    exact (C55_app_monotonic_prio h).2.2.2 q (by rw [hqd]; exact handler_prio_le h d) hlow
  have hC := MaskTimed.C105_expired_runs_first_partial (maskTimedCfg_wellFormed h hcol num hv htb own) (d := d) (maskTimed_plain h h1 (by rw [← hqd]; exact hpl) hv own hpt) (i := i) (ts := ts) hst hx h1 (by show own i ∈ ts; rw [ho]; exact h2) (by rw [hpd]; exact hq) hpt (by rw [hpd]; exact hw)
  rw [hpd] at hC
  have tp : ∀ {n' t' k' q' args'}, Runs p n' t' → TaskIs raw t' k' q' args' → (maskTimedCfg tg bits num p v tb own).sys.sm.prio n' = q' := by
    intro n' t' k' q' args' hr' ht'
    obtain ⟨_, _, g⟩ := runs_prio h hr'
    rw [prio n' t' hr']
    exact (task_unique h g ht').2
  refine ⟨?_, ?_⟩
  · intro n' t' k' q' args' hm hr' ht'
    have := hC.2 _ n' hm rfl
    rwa [tp hr' ht'] at this
  · intro a ev s4 n' t' k' q' args' hs hown htop hr' ht' hlt
    rcases hC.1 a ev s4 n' hs hown htop with hle | hb'
    · rw [tp hr' ht'] at hle; omega
    · exact hb'

/-! ### Example: in the application `exRaw`, with a 32-bit timer on vector 70, `init` spawns task 22 (priority 1; handler 51), which awaits a delay until time 20 -/

def exMTimed : MaskTimed.Cfg := maskTimedCfg exTarget 4 exNum exProg 70 { w := 32, noop := true, sl := 0 } (fun i => if i = 0 then 22 else 0)

theorem exMTimed_tasks {d : Nat} {ts : List Nat} (h : exMTimed.sys.tasks d = some ts) : (d = 51 ∧ ts = [22]) ∨ (d = 52 ∧ ts = [23, 24]) := by
  obtain ⟨q, hm⟩ := polledBy_mem (p := exProg) (n := d) h
  simp only [exProg, List.mem_cons, Prod.mk.injEq, List.not_mem_nil, or_false] at hm
  rcases hm with ⟨h1, -, h2⟩ | ⟨h1, -, h2⟩ <;> cases d <;> simp_all [vecOf]

theorem exMTimed_small : MaskTimed.Small exMTimed 72 1 where
  sys := by
    constructor
    · intro n hn
      show (if n = 71 then _ else handlerPrio exProg n) = 0
      rw [if_neg (by omega)]
      cases n with
      | zero => rfl
      | succ v =>
        have h1 : ¬ 60 = v := by omega
        have h2 : ¬ 61 = v := by omega
        have h3 : ¬ 50 = v := by omega
        have h4 : ¬ 51 = v := by omega
        simp [handlerPrio, vecPrio, exProg, List.find?, h1, h2, h3, h4]
    · intro n hn
      cases hp : exMTimed.sys.tasks n with
      | none => rfl
      | some ts => rcases exMTimed_tasks hp with ⟨rfl, -⟩ | ⟨rfl, -⟩ <;> omega
  own := by
    intro i hi d ts h
    have : exMTimed.own i = 0 := by show (if i = 0 then _ else _) = _; rw [if_neg (by omega)]
    rw [this]
    rcases exMTimed_tasks h with ⟨-, rfl⟩ | ⟨-, rfl⟩ <;> decide

theorem exMTimed_uses : ∀ t r, (fun _ _ => false : Nat → Nat → Bool) t r = true → exMTimed.sys.sm.uses t r := fun _ _ h => by cases h

/-- `init` has spawned task 22 -/
def exMStart : MaskTimed.St :=
  { y := { m := SourceMask.start 0 exOn, pend := fun _ => false, ex := fun h => if h = 51 then Timed.spawned [22] 22 else Executor.init }, tq := TimerQueue.init true, call := none, waits := fun _ => false }

theorem exMTimed_start : MaskTimed.Start exMTimed exOn exMStart where
  m := rfl
  calls := fun d' ts h => by
    have hz : exMTimed.sys.exec d' ts = { ts := ts, zero := false } := by
      rcases exMTimed_tasks h with ⟨rfl, rfl⟩ | ⟨rfl, rfl⟩ <;> rfl
    rw [hz]
    rcases exMTimed_tasks h with ⟨rfl, rfl⟩ | ⟨rfl, rfl⟩
    · obtain ⟨tr, hx⟩ := Timed.spawned_eq [22] 22 List.mem_cons_self
      refine ⟨Timed.initSpawn 22, tr, ?_, by simpa [exMStart] using hx⟩
      intro a ha
      simp only [Timed.initSpawn, List.mem_cons, List.not_mem_nil, or_false] at ha
      rcases ha with rfl | rfl | rfl | rfl | rfl <;> exact ⟨rfl, fun _ _ => ⟨by simp, by simp⟩⟩
    · exact ⟨[], [], by simp, rfl⟩
  over := fun d' i => by
    simp only [exMStart]
    split
    · exact Timed.spawned_idle _ _ _ List.mem_cons_self
    · rfl
  tq := rfl
  line := rfl
  call := rfl
  waits := fun _ => rfl

def exMExpiry : List MaskTimed.Act :=
  [.sys (.irq 51), .sys (.disp 51 false), .sys (.disp 51 false), .sys (.disp 51 false), .op (.create 0 20), .op (.poll 0 22), .op (.ins 0), .op (.pend 0), .sys (.disp 51 false), .sys (.disp 51 false), .sys (.code .ret),
   .enter, .hgo, .hgo, .hgo, .hgo, .arm 20, .hgo, .sys (.code .ret)] ++ List.replicate 19 (.clock false false false) ++ [.clock true false false]

def exMExpired (s : MaskTimed.St) : Bool := s.waits 0 && decide (s.tq.inst 0 ≤ s.tq.now) && decide (s.tq.pc 0 ≠ .p2) && MaskTimed.stackIs [0] s.y.m.stack && (MaskTimed.next exMTimed (fun _ _ => false) 72 1 s .enter).isSome

theorem exMExpiry_run : (match MaskTimed.run exMTimed (fun _ _ => false) 72 1 exMStart exMExpiry with | some (_, s) => exMExpired s | none => false) = true := by decide +kernel

theorem exMExpiry_others (j : Nat) (hj : j ≠ 0) : ∀ a ∈ exMExpiry, MaskTimed.others j a = true := by
  intro a ha
  simp only [exMExpiry, List.mem_append, List.mem_cons, List.not_mem_nil, or_false, List.mem_replicate] at ha
  simp only [or_assoc] at ha
  repeat' (rcases ha with rfl | ha)
  all_goals first | rfl | (simp [MaskTimed.others, Timed.opOf]; omega) | skip
  rcases ha with ha | ha
  · rw [ha.2]; rfl
  · rw [ha]; rfl

/-- the hypotheses of `C105_app_expired_runs_first_partial` are met: idle runs when the delay expires; the timer interrupt is taken -/
example : Runs exProg 51 22 ∧ PlainApp exTarget exNum exProg exOn 1 ∧ FreeVector exProg 70 ∧ exMTimed.sys.sm.prio 71 = 1 ∧ ∃ s2 s3 as0 tr0, MaskTimed.Start exMTimed exOn exMStart ∧ MaskTimed.Exec exMTimed exMStart as0 tr0 s2 ∧ SourceMask.top s2.y.m.stack = some 0 ∧ exMTimed.own 0 = 22 ∧
    MaskTimed.While exMTimed (fun s => s.waits 0 = true ∧ MaskTimed.Overdue exMTimed 0 s ∧ ¬ MaskTimed.HeldUp exMTimed 1 s) s2 [] s2 ∧ MaskTimed.Step exMTimed s2 .enter [] s3 := by
  refine ⟨.inr ⟨1, [22], by decide, by decide⟩, exPlain 1, exTimed_free, by decide, ?_⟩
  have h := exMExpiry_run
  split at h
  · next tr s hr =>
    simp only [exMExpired, Bool.and_eq_true, decide_eq_true_eq, Option.isSome_iff_exists] at h
    obtain ⟨⟨⟨⟨h1, h2⟩, h3⟩, h4⟩, ⟨ev, s3⟩, hn⟩ := h
    have h0 : MaskSystem.Idle exMTimed.sys exMStart.y := fun d' _ i => exMTimed_start.over d' i
    have hx := MaskTimed.run_sound exMTimed_uses exMTimed_small h0 hr
    have hs := MaskTimed.next_sound exMTimed_uses exMTimed_small (MaskTimed.idle_exec h0 hx) hn
    have hev : ev = [] := by cases hs; rfl
    subst hev
    refine ⟨s, s3, _, tr, exMTimed_start, hx, by rw [MaskTimed.stackIs_eq h4]; rfl, rfl, .nil ⟨h1, h2, ?_⟩, hs⟩
    rintro ⟨j, hj, -⟩
    by_cases e : j = 0
    · subst e; exact h3 hj
    · rw [MaskTimed.pc_exec hx (exMExpiry_others j e)] at hj; cases hj
  · cases h

end Verif.EndToEnd
