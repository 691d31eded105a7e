import Verif.Delay.Model

/-! # C78: a task that awaits a delay is polled when the delay has expired -/

namespace Verif.Delay

theorem exec_cons {c : Cfg} {s s2 : St} {a : Act} {as : List Act} {tr : List Ev} (h : exec c s (a :: as) = some (s2, tr)) :
    ∃ s1 e1 e2, step c s a = some (s1, e1) ∧ exec c s1 as = some (s2, e2) ∧ tr = e1 ++ e2 := by
  simp only [exec] at h
  cases hs : step c s a with
  | none => rw [hs] at h; cases h
  | some p =>
    rw [hs] at h; simp only at h
    cases hx : exec c p.1 as with
    | none => rw [hx] at h; cases h
    | some q =>
      rw [hx] at h
      simp only [Option.some.injEq, Prod.mk.injEq] at h
      obtain ⟨rfl, rfl⟩ := h
      exact ⟨p.1, p.2, q.2, rfl, hx, rfl⟩

/-- on the way from the expired entry to the poll of task `t` -/
def Chain (c : Cfg) (t : Nat) (s : St) : Prop :=
  (s.tq.h = .h2 t ∧ s.inCall = false) ∨ Executor.Spawning t c.hid s.ex ∨ Executor.Due c.xc t s.ex

structure Inv (c : Cfg) (s : St) : Prop where
  tq : ∃ tr, TimerQueue.Reach c.tb s.tq tr
  ex : ∃ acts h, Executor.exec c.xc Executor.init acts = some (s.ex, h)
  wkq : ∀ e ∈ s.tq.q, e.wk = c.own e.id
  wkp : ∀ i wk, s.tq.pc i = .p1 wk → wk = c.own i
  call : s.inCall = true → ∃ wk, s.tq.h = .h2 wk ∧ wk ∈ c.xc.ts
  hid : s.ex.pc c.hid ≠ .idle → s.inCall = true
  pc : ∀ i, s.waits i = true → s.tq.pc i ≠ .d1 ∧ s.tq.pc i ≠ .none
  run : ∀ i, s.waits i = true → c.own i ∈ c.xc.ts → s.ex.running (c.own i) = true
  main : ∀ i, s.waits i = true → c.own i ∈ c.xc.ts → s.ex.ub = false →
    (∃ wk, s.tq.pc i = .p1 wk) ∨ (∃ e ∈ s.tq.q, e.id = i) ∨ Chain c (c.own i) s

theorem inv_init (c : Cfg) : Inv c (init c) where
  tq := ⟨[], [], rfl⟩
  ex := ⟨[], [], rfl⟩
  wkq := by simp [init, TimerQueue.init]
  wkp := by simp [init, TimerQueue.init]
  call := by simp [init]
  hid := by simp [init, Executor.init]
  pc := by simp [init]
  run := by simp [init]
  main := by simp [init]

theorem tq_reach {b : TimerQueue.Cfg} {s s' : TimerQueue.St} {a : TimerQueue.Act} {e : List TimerQueue.Ev} (h : ∃ tr, TimerQueue.Reach b s tr)
    (hs : TimerQueue.step b s a = some (s', e)) : ∃ tr, TimerQueue.Reach b s' tr := by
  obtain ⟨tr, h⟩ := h
  exact ⟨_, h.step hs⟩

theorem ex_reach {c : Executor.Cfg} {s s' : Executor.St} {a : Executor.Act} {e : List Executor.Ev} (h : ∃ acts h, Executor.exec c Executor.init acts = some (s, h))
    (hs : Executor.step c s a = some (s', e)) : ∃ acts h, Executor.exec c Executor.init acts = some (s', h) := by
  obtain ⟨acts, h0, h⟩ := h
  exact ⟨acts ++ [a], h0 ++ e, Executor.exec_trans h (by simp [Executor.exec, hs])⟩

theorem body_running {c : Executor.Cfg} {s : Executor.St} {t : Nat} (h : ∃ acts h, Executor.exec c Executor.init acts = some (s, h)) (hb : s.d.isBody t = true) : s.running t = true := by
  obtain ⟨acts, h0, h⟩ := h
  obtain ⟨p, hp⟩ := Executor.reach_inv h t
  have := hp.bod hb
  rw [hp.run]
  cases p <;> simp [Executor.Ph.isBegun] at this <;> rfl

theorem inv_tq {c : Cfg} (hw : 0 < c.tb.w) {s : St} {a : TimerQueue.Act} {q : TimerQueue.St} {e : List TimerQueue.Ev} (hI : Inv c s) (hok : tqOk c s a = true)
    (hs : TimerQueue.step c.tb s.tq a = some (q, e)) : Inv c { s with tq := q, waits := waitsTq s.waits a e } := by
  obtain ⟨htr, htq⟩ := hI.tq
  have hti := (TimerQueue.reach_inv hw htq).1
  have hready := fun i => TimerQueue.C27_woken_is_ready hw htq (i := i)
  have hq := tq_reach hI.tq hs
  obtain ⟨-, h2, h3, h4, h5, h6, h7, h8, h9⟩ := hI
  cases TimerQueue.tr_of_step hs with
  | tick m o p g1 g2 g3 => exact ⟨hq, h2, h3, h4, h5, h6, h7, h8, h9⟩
  | create i t hp =>
    refine ⟨hq, h2, h3, ?_, h5, h6, ?_, ?_, ?_⟩ <;> simp only [waitsTq, TimerQueue.set_apply] <;> grind [Chain]
  | pollReady i wk hp hn hr =>
    refine ⟨hq, h2, h3, h4, h5, h6, ?_, ?_, ?_⟩ <;> simp only [waitsTq] <;> grind [Chain]
  | pollWait i wk x hp hn hr hl =>
    have hx : x = false := by
      cases x with
      | false => rfl
      | true =>
        rw [TimerQueue.atLeast_eq hw hn] at hr
        exact absurd (hready i hl) (by simpa using hr)
    subst hx
    have hmem := (hti.mem i).2 ⟨.inl hp, hl⟩
    have hrun : c.own i ∈ c.xc.ts → s.ex.running (c.own i) = true := by
      intro ht
      simp only [tqOk, Bool.and_eq_true, decide_eq_true_eq, Bool.or_eq_true] at hok
      obtain ⟨rfl, hb | hb⟩ := hok
      · exact body_running h2 hb
      · exact absurd ht hb
    refine ⟨hq, h2, h3, h4, h5, h6, ?_, ?_, ?_⟩ <;> simp only [waitsTq] <;> grind [Chain]
  | pollNew i wk hp hn hr hl =>
    have ho : wk = c.own i ∧ (c.own i ∈ c.xc.ts → s.ex.running (c.own i) = true) := by
      simp only [tqOk, Bool.and_eq_true, decide_eq_true_eq, Bool.or_eq_true] at hok
      obtain ⟨rfl, hb | hb⟩ := hok
      · exact ⟨rfl, fun _ => body_running h2 hb⟩
      · exact ⟨rfl, fun ht => absurd ht hb⟩
    obtain ⟨rfl, hrun⟩ := ho
    refine ⟨hq, h2, h3, ?_, h5, h6, ?_, ?_, ?_⟩ <;> simp only [waitsTq, TimerQueue.set_apply] <;> grind [Chain]
  | ins i wk hp hn hm =>
    have ho := h4 i wk hp
    refine ⟨hq, h2, ?_, ?_, h5, h6, ?_, h8, ?_⟩ <;> simp only [waitsTq, TimerQueue.set_apply, TimerQueue.mem_insE] <;> grind [Chain]
  | pend i hp =>
    refine ⟨hq, h2, h3, ?_, h5, h6, ?_, h8, ?_⟩ <;> simp only [waitsTq, TimerQueue.set_apply] <;> grind [Chain]
  | dropQ i hp hl =>
    refine ⟨hq, h2, h3, ?_, h5, h6, ?_, ?_, ?_⟩ <;> simp only [waitsTq, TimerQueue.set_apply] <;> grind [Chain]
  | dropN i hp hl =>
    refine ⟨hq, h2, h3, ?_, h5, h6, ?_, ?_, ?_⟩ <;> simp only [waitsTq, TimerQueue.set_apply] <;> grind [Chain]
  | del i hp =>
    refine ⟨hq, h2, ?_, ?_, h5, h6, ?_, ?_, ?_⟩ <;> simp only [waitsTq, TimerQueue.set_apply, List.mem_filter, decide_eq_true_eq] <;> grind [Chain]
  | popYes e q hh hqq hr =>
    refine ⟨hq, h2, ?_, h4, ?_, h6, h7, h8, ?_⟩ <;> simp only [waitsTq] <;> grind [Chain]
  | wake wk hh =>
    simp only [tqOk, St.wakes, hh, Bool.not_eq_true', decide_eq_false_iff_not] at hok
    refine ⟨hq, h2, h3, h4, ?_, h6, h7, h8, ?_⟩ <;> simp only [waitsTq] <;> grind [Chain]
  | _ =>
    refine ⟨hq, h2, h3, h4, ?_, h6, h7, h8, ?_⟩ <;> simp only [waitsTq] <;> grind [Chain]

theorem served_cases {c : Executor.Cfg} {s s1 : Executor.St} {a : Executor.Act} {e : List Executor.Ev} {t : Nat} (hs : Executor.step c s a = some (s1, e))
    (h : Executor.Served t e) : .polled t ∈ e ∨ .completed t ∈ e ∨ s1.ub = true := by
  rcases h with h | h | ⟨t', h⟩
  · exact .inl h
  · exact .inr (.inl h)
  · have htr := Executor.tr_of_step hs
    generalize a.isDisp = fl at htr
    right; right
    cases htr <;> simp at h <;> rfl

theorem running_step {c : Executor.Cfg} {s s1 : Executor.St} {a : Executor.Act} {e : List Executor.Ev} {t : Nat} (hs : Executor.step c s a = some (s1, e))
    (h : s.running t = true) : .completed t ∈ e ∨ s1.running t = true := by
  have htr := Executor.tr_of_step hs
  generalize a.isDisp = fl at htr
  cases htr <;> grind

/-- the call of the handler, and what follows from it, under any access of the executor -/
theorem chain_ex {c : Executor.Cfg} {hid t : Nat} (ht : t ∈ c.ts) {s s1 : Executor.St} {a : Executor.Act} {e : List Executor.Ev} (hs : Executor.step c s a = some (s1, e))
    (h : Executor.Spawning t hid s ∨ Executor.Due c t s) : Executor.Served t e ∨ Executor.Spawning t hid s1 ∨ Executor.Due c t s1 := by
  rcases h with h | h
  · by_cases hn : a = .thr hid → s.pc hid ≠ .p t
    · rcases Executor.spawning_step h hs hn with h | h
      · exact .inl h
      · exact .inr (.inl h)
    · exact .inr (.inr (Executor.pc_p_stays h hs hn))
  · rcases Executor.due_step ht h hs with h | ⟨h, -⟩
    · exact .inl h
    · exact .inr (.inr h)

theorem hid_step {c : Cfg} {s s1 : Executor.St} {a : Executor.Act} {e : List Executor.Ev} (hok : exOk c a = true) (hs : Executor.step c.xc s a = some (s1, e))
    (h : s.pc c.hid = .idle) : s1.pc c.hid = .idle := by
  unfold Executor.step at hs
  split at hs
  · cases hs
  · cases a with
    | callSpawn j t a =>
      simp only at hs
      simp only [exOk, decide_eq_true_eq] at hok
      split at hs <;> cases hs
      simp only [Executor.upd_apply]; rw [if_neg (Ne.symm hok)]; exact h
    | callWake j t =>
      simp only at hs
      simp only [exOk, decide_eq_true_eq] at hok
      split at hs <;> cases hs
      simp only [Executor.upd_apply]; rw [if_neg (Ne.symm hok)]; exact h
    | thr j =>
      by_cases hj : c.hid = j
      · subst hj; simp only [Executor.stepThr, h] at hs; cases hs
      · simp only [Executor.stepThr] at hs
        cases hp : s.pc j <;> simp only [hp] at hs
        · cases hs
        · split at hs <;> cases hs <;> simp only [Executor.upd_apply] <;> rw [if_neg hj] <;> exact h
        all_goals (cases hs; simp only [Executor.upd_apply]; rw [if_neg hj]; exact h)
    | disp r =>
      have htr := Executor.tr_of_step (c := c.xc) (s := s) (a := .disp r) (s1 := s1) (e := e) (by unfold Executor.step; rw [if_neg ‹_›]; exact hs)
      simp only [Executor.Act.isDisp] at htr
      cases htr <;> exact h

theorem inv_ex {c : Cfg} {s : St} {a : Executor.Act} {x : Executor.St} {e : List Executor.Ev} (hI : Inv c s) (hok : exOk c a = true)
    (hs : Executor.step c.xc s.ex a = some (x, e)) : Inv c { s with ex := x, waits := waitsEx c.own s.waits e } := by
  have hx := ex_reach hI.ex hs
  have hu := Executor.ub_of_step hs
  obtain ⟨h1, -, h3, h4, h5, h6, h7, h8, h9⟩ := hI
  have hwait : ∀ i, waitsEx c.own s.waits e i = true → s.waits i = true ∧ .polled (c.own i) ∉ e ∧ .completed (c.own i) ∉ e := by
    intro i h
    simpa only [waitsEx, Bool.and_eq_true, decide_eq_true_eq] using h
  refine ⟨h1, hx, h3, h4, h5, ?_, ?_, ?_, ?_⟩
  · intro hp
    refine Classical.byContradiction fun hc => hp ?_
    exact hid_step hok hs (Classical.byContradiction fun h => hc (h6 h))
  · intro i hw; exact h7 i (hwait i hw).1
  · intro i hw ht
    obtain ⟨hw, -, hc⟩ := hwait i hw
    exact (running_step hs (h8 i hw ht)).resolve_left hc
  · intro i hw ht hub
    obtain ⟨hw, hp, hc⟩ := hwait i hw
    rcases h9 i hw ht hu with h | h | h | h
    · exact .inl h
    · exact .inr (.inl h)
    · exact .inr (.inr (.inl h))
    · right; right
      rcases chain_ex ht hs h with h | h
      · rcases served_cases hs h with h | h | h
        · exact absurd h hp
        · exact absurd h hc
        · rw [show x.ub = false from hub] at h; cases h
      · exact .inr h

theorem inv_step {c : Cfg} (hw : 0 < c.tb.w) {s s' : St} {a : Act} {e : List Ev} (hI : Inv c s) (hs : step c s a = some (s', e)) : Inv c s' := by
  cases a with
  | tq a =>
    simp only [step] at hs
    split at hs
    · split at hs <;> cases hs
      exact inv_tq hw hI ‹_› ‹_›
    · cases hs
  | ex a =>
    simp only [step] at hs
    split at hs
    · split at hs <;> cases hs
      exact inv_ex hI ‹_› ‹_›
    · cases hs
  | hcall =>
    simp only [step] at hs
    split at hs
    · rename_i wk hh
      split at hs
      · cases hs
      · rename_i hc
        split at hs
        · rename_i x e hx
          cases hs
          have hxr := ex_reach hI.ex hx
          have hu := Executor.ub_of_step hx
          obtain ⟨h1, -, h3, h4, h5, h6, h7, h8, h9⟩ := hI
          have hidle : s.ex.pc c.hid = .idle := Classical.byContradiction fun h => hc (h6 h)
          have hx' := hx
          simp only [Executor.step, hu, Bool.false_eq_true, if_false] at hx'
          split at hx'
          · rename_i hg
            cases hx'
            refine ⟨h1, hxr, h3, h4, fun _ => ⟨wk, hh, hg.2⟩, fun _ => rfl, h7, h8, ?_⟩
            intro i hw ht hub
            rcases h9 i hw ht hu with h | h | ⟨h, -⟩ | h
            · exact .inl h
            · exact .inr (.inl h)
            · right; right; right; left
              rw [hh] at h; cases h
              exact ⟨h8 i hw ht, .inr (.inr (.inl (by simp [Executor.upd_apply])))⟩
            · right; right; right
              rcases chain_ex ht hx h with h | h
              · simp [Executor.Served] at h
              · exact h
          · cases hx'
        · cases hs
    · cases hs
  | hret =>
    simp only [step] at hs
    split at hs
    · rename_i hc
      split at hs
      · rename_i q e hq
        cases hs
        have hqr := tq_reach hI.tq hq
        obtain ⟨-, h2, h3, h4, h5, h6, h7, h8, h9⟩ := hI
        obtain ⟨wk, hh, hts⟩ := h5 hc.1
        simp only [TimerQueue.step, hh] at hq
        cases hq
        refine ⟨hqr, h2, h3, h4, by simp, fun h => absurd hc.2 h, h7, h8, ?_⟩
        intro i hw ht hub
        rcases h9 i hw ht hub with h | h | ⟨-, h⟩ | h
        · exact .inl h
        · exact .inr (.inl h)
        · rw [hc.1] at h; cases h
        · exact .inr (.inr (.inr h))
      · cases hs
    · cases hs

theorem inv_exec {c : Cfg} (hw : 0 < c.tb.w) : ∀ {as : List Act} {s s' : St} {e : List Ev}, Inv c s → exec c s as = some (s', e) → Inv c s' := by
  intro as
  induction as with
  | nil => intro s s' e hI hx; simp only [exec, Option.some.injEq, Prod.mk.injEq] at hx; obtain ⟨rfl, rfl⟩ := hx; exact hI
  | cons a as ih =>
    intro s s' e hI hx
    obtain ⟨s1, e1, e2, h1, h2, rfl⟩ := exec_cons hx
    exact ih (inv_step hw hI h1) h2

/-- The timer side is at rest: the handler is not running, its interrupt is not pending, and no `poll` of a delay is under way. -/
def TimerAtRest (s : St) : Prop := s.tq.h = .idle ∧ s.tq.irq = false ∧ ∀ i, s.tq.pc i = .none ∨ s.tq.pc i = .alive ∨ s.tq.pc i = .d1

/-- Delay `i` is overdue: its instant (plus the slack of the hardware compare, 0 for most timers) is not in the future. -/
def Overdue (c : Cfg) (i : Nat) (s : St) : Prop := s.tq.inst i + c.tb.sl ≤ s.tq.now

theorem rest_due {c : Cfg} (hw : 0 < c.tb.w) {s : St} {i : Nat} (hI : Inv c s) (hr : TimerAtRest s) (hwait : s.waits i = true) (ht : c.own i ∈ c.xc.ts) (ho : Overdue c i s)
    (hu : s.ex.ub = false) : Executor.Due c.xc (c.own i) s.ex := by
  obtain ⟨tr, htq⟩ := hI.tq
  obtain ⟨hh, hirq, hpc⟩ := hr
  have hinv := (TimerQueue.reach_inv hw htq).1
  rcases hI.main i hwait ht hu with ⟨wk, h⟩ | ⟨e, he, rfl⟩ | ⟨h, -⟩ | h | h
  · rcases hpc i with h' | h' | h' <;> rw [h] at h' <;> cases h'
  · rcases TimerQueue.C28_overdue_pending hw htq hh he (by rw [hinv.time e he]; exact ho) with h | ⟨j, h⟩
    · rw [hirq] at h; cases h
    · rcases hpc j with h' | h' | h' <;> rw [h] at h' <;> cases h'
  · rw [hh] at h; cases h
  · have : s.ex.pc c.hid ≠ .idle := by obtain ⟨-, ⟨a, h⟩ | h | h | ⟨h, -⟩⟩ := h <;> simp [h]
    obtain ⟨wk, h, -⟩ := hI.call (hI.hid this)
    rw [hh] at h; cases h
  · exact h

/-- events of the executor -/
def exEvs : List Ev → List Executor.Ev
  | [] => []
  | .ex e :: tr => e :: exEvs tr
  | .tq _ :: tr => exEvs tr

theorem exEvs_append (a b : List Ev) : exEvs (a ++ b) = exEvs a ++ exEvs b := by
  induction a with
  | nil => rfl
  | cons x a ih => cases x <;> simp [exEvs, ih]

theorem exEvs_ex (l : List Executor.Ev) : exEvs (l.map .ex) = l := by induction l <;> simp_all [exEvs]
theorem exEvs_tq (l : List TimerQueue.Ev) : exEvs (l.map .tq) = [] := by induction l <;> simp_all [exEvs]

theorem mem_exEvs {x : Executor.Ev} {l : List Ev} : x ∈ exEvs l ↔ .ex x ∈ l := by
  induction l with
  | nil => simp [exEvs]
  | cons y l ih => cases y <;> simp [exEvs, ih]

/-- the executor's part of an execution -/
theorem proj_ex {c : Cfg} : ∀ {as : List Act} {s s' : St} {e : List Ev}, exec c s as = some (s', e) →
    ∃ acts, Executor.exec c.xc s.ex acts = some (s'.ex, exEvs e) ∧ Executor.dispCount acts = dispCount as := by
  intro as
  induction as with
  | nil => intro s s' e hx; simp only [exec, Option.some.injEq, Prod.mk.injEq] at hx; obtain ⟨rfl, rfl⟩ := hx; exact ⟨[], rfl, rfl⟩
  | cons a as ih =>
    intro s s' e hx
    obtain ⟨s1, e1, e2, h1, h2, rfl⟩ := exec_cons hx
    obtain ⟨acts, ha, hd⟩ := ih h2
    rw [exEvs_append]
    cases a with
    | tq a =>
      simp only [step] at h1
      split at h1
      · split at h1 <;> cases h1
        exact ⟨acts, by rw [exEvs_tq]; exact ha, hd⟩
      · cases h1
    | ex a =>
      simp only [step] at h1
      split at h1
      · split at h1
        · rename_i x e hst
          cases h1
          simp only at ha
          refine ⟨a :: acts, by rw [exEvs_ex]; simp only [Executor.exec, hst, ha], ?_⟩
          cases a <;> simp [Executor.dispCount, dispCount, hd]
        · cases h1
      · cases h1
    | hcall =>
      simp only [step] at h1
      split at h1
      · rename_i wk hh
        split at h1
        · cases h1
        · split at h1
          · rename_i x e hst
            cases h1
            simp only at ha
            exact ⟨.callWake c.hid wk :: acts, by rw [exEvs_ex]; simp only [Executor.exec, hst, ha], by simp [Executor.dispCount, dispCount, hd]⟩
          · cases h1
      · cases h1
    | hret =>
      simp only [step] at h1
      split at h1
      · split at h1 <;> cases h1
        exact ⟨acts, by rw [exEvs_tq]; exact ha, hd⟩
      · cases h1

/-- **C78** Let the poll of task `t` leave it waiting for the delay `i` (the delay returned `Pending` in the latest poll of the task and has not been dropped), and let the delay be overdue in a state in which the timer side is at rest. Then the task is
polled as soon as the dispatcher has had two rounds of processor time, whatever else happens – in any interleaving before and after. (The exceptions: the body of the task is just running and returns `Ready`; undefined behaviour, see C38.) -/
theorem C78_awaiting_task_is_polled {c : Cfg} (hw : 0 < c.tb.w) {as as2 : List Act} {s s2 : St} {tr tr2 : List Ev} {i : Nat}
    (hx : exec c (init c) as = some (s, tr)) (hwait : s.waits i = true) (ht : c.own i ∈ c.xc.ts) (ho : Overdue c i s) (hrest : TimerAtRest s)
    (hx2 : exec c s as2 = some (s2, tr2)) (hfair : Executor.twoRounds c.xc ≤ dispCount as2) :
    .ex (.polled (c.own i)) ∈ tr2 ∨ (Executor.InBody (c.own i) s.ex.d ∧ .ex (.completed (c.own i)) ∈ tr2) ∨ ∃ t', .ex (.badPoll t') ∈ tr2 := by
  have hI := inv_exec hw (inv_init c) hx
  obtain ⟨a1, hx1, -⟩ := proj_ex hx
  obtain ⟨a2, hxe, hd⟩ := proj_ex hx2
  have hb := Executor.reach_bound (c := c.xc) hx1 (c.own i)
  have hu : s.ex.ub = false := by
    cases a2 with
    | nil => simp only [Executor.dispCount] at hd; simp only [← hd, Executor.twoRounds] at hfair; omega
    | cons a a2 =>
      obtain ⟨s1, e1, e2, h1, -, -⟩ := Executor.exec_cons hxe
      exact Executor.ub_of_step h1
  have hdue := rest_due hw hI hrest hwait ht ho hu
  rcases Executor.due_exec ht hdue hxe (by omega) with h | h | ⟨t', h⟩
  · exact .inl (mem_exEvs.1 h)
  · by_cases hbody : Executor.InBody (c.own i) s.ex.d
    · exact .inr (.inl ⟨hbody, mem_exEvs.1 h⟩)
    · exact .inl (mem_exEvs.1 (Executor.completed_polled hbody hxe h))
  · exact .inr (.inr ⟨t', mem_exEvs.1 h⟩)

/-- **C78** No task is ever forgotten: in every reachable state in which a task waits for an overdue delay, the timer interrupt handler is running or about to be entered or a poll of a delay is under way (so that the handler will be pended), or
the dispatcher is ready to proceed (or undefined behaviour has stopped the program, see C38). -/
theorem C78_no_forgotten_task {c : Cfg} (hw : 0 < c.tb.w) {as : List Act} {s : St} {tr : List Ev} {i : Nat}
    (hx : exec c (init c) as = some (s, tr)) (hwait : s.waits i = true) (ht : c.own i ∈ c.xc.ts) (ho : Overdue c i s) :
    ¬ TimerAtRest s ∨ Executor.Ready c.xc s.ex ∨ s.ex.ub = true := by
  by_cases hr : TimerAtRest s
  · cases hu : s.ex.ub with
    | true => exact .inr (.inr rfl)
    | false => exact .inr (.inl (Executor.due_ready (rest_due hw (inv_exec hw (inv_init c) hx) hr hwait ht ho hu) hu))
  · exact .inl hr

/-- **C78** And that poll is not in vain: when the awaiting task polls an overdue delay, the delay is ready. -/
theorem C78_overdue_is_ready {c : Cfg} (hw : 0 < c.tb.w) {s s' : St} {e : List Ev} {i wk : Nat} (ho : Overdue c i s) (hs : step c s (.tq (.poll i wk)) = some (s', e)) :
    e = [.tq (.ready i)] := by
  simp only [step] at hs
  split at hs
  · split at hs
    · rename_i q e1 h1
      cases hs
      unfold Overdue at ho
      cases TimerQueue.tr_of_step h1 with
      | pollReady => rfl
      | pollWait _ _ x hp hn hr hl => rw [TimerQueue.atLeast_eq hw hn] at hr; simp at hr; omega
      | pollNew _ _ hp hn hr hl => rw [TimerQueue.atLeast_eq hw hn] at hr; simp at hr; omega
    · cases hs
  · cases hs

/-! ### A run: task 1 awaits a delay of two ticks -/

def demo : Cfg := { tb := { w := 32, noop := true, sl := 0 }, xc := { ts := [1], zero := false }, own := fun _ => 1, hid := 100 }

/-- spawn task 1; in its first poll it creates and polls delay 7 for instant 2; the handler arms the compare -/
def demo1 : List Act :=
  [.ex (.callSpawn 0 1 5), .ex (.thr 0), .ex (.thr 0), .ex (.thr 0), .ex (.thr 0), .ex (.disp false), .ex (.disp false), .ex (.disp false), .ex (.disp false),
   .tq (.create 7 2), .tq (.poll 7 1), .tq (.ins 7), .tq (.pend 7), .ex (.disp false), .ex (.disp false),
   .tq .start, .tq .hgo, .tq .hgo, .tq .hgo, .tq .hgo, .tq (.arm 2), .tq .hgo]

/-- two ticks; the handler takes the entry out and wakes task 1 -/
def demo2 : List Act :=
  [.tq (.tick false false false), .tq (.tick true false false), .tq .start, .tq .hgo, .tq .hgo, .tq .hgo, .hcall, .ex (.thr 100), .ex (.thr 100), .hret, .tq .hgo, .tq .hgo]

-- after this the delay is overdue, the timer side is at rest and the dispatcher is pended
example : (exec demo (init demo) (demo1 ++ demo2)).map (fun x => (x.1.waits 7, decide (x.1.tq.inst 7 + 0 ≤ x.1.tq.now), x.1.tq.h, x.1.tq.irq, x.1.tq.pc 7, x.1.ex.irq)) =
    some (true, true, .idle, false, .alive, true) := rfl

-- so the hypotheses of `C78_awaiting_task_is_polled` hold in this state
example : ∃ s tr, exec demo (init demo) (demo1 ++ demo2) = some (s, tr) ∧ s.waits 7 = true ∧ demo.own 7 ∈ demo.xc.ts ∧ Overdue demo 7 s ∧ TimerAtRest s := by
  refine ⟨_, _, rfl, rfl, by decide, Nat.le_refl 2, rfl, rfl, fun i => ?_⟩
  by_cases h : i = 7
  · subst h; exact .inr (.inl rfl)
  · left
    simp [TimerQueue.set_apply, h]
    rfl

-- and the dispatcher polls task 1, which finds the delay ready
example : (exec demo (init demo) (demo1 ++ demo2 ++ [.ex (.disp false), .ex (.disp false), .ex (.disp false), .ex (.disp false), .tq (.poll 7 1), .ex (.disp true)])).map (·.2) =
    some [.ex (.ok 1 5), .ex (.started 1 5), .ex (.polled 1), .tq (.inserted 7), .tq (.popped { id := 7, wk := 1, time := 2 } 2), .tq (.woke 1), .ex (.polled 1), .tq (.ready 7)] := rfl

end Verif.Delay
