import Verif.MaskSystem.Model
import Verif.MaskSystem.Blocking
import Verif.Executor.Props

/-!
# C91: a spawned or woken task runs before anything of lower priority, on targets that mask interrupt sources
-/

namespace Verif.MaskSystem

open Verif

/-! ## Specification -/

/-- events of the executors of dispatcher `d` -/
def evsOf (d : Nat) (tr : List (Nat × Executor.Ev)) : List Executor.Ev := tr.filterMap fun e => if e.1 = d then some e.2 else none

/-- number of accesses of dispatcher `d` -/
def accesses (d : Nat) : List Act → Nat
  | [] => 0
  | .disp h _ :: as | .irq h :: as => accesses d as + (if h = d then 1 else 0)
  | _ :: as => accesses d as

/-- From `s2` to `s3`, and in the next step, no code of a lower priority than dispatcher `d` runs, except inside a critical section that was entered before `s2`, and none is started; `d` made fewer accesses than two rounds over its tasks. -/
structure Preempts (c : Cfg) (d : Nat) (ts : List Nat) (s2 : St) (as : List Act) (s3 : St) : Prop where
  /-- who runs has at least the priority of `d`, or is held up in a critical section entered before `s2` that blocks `d` -/
  next : ∀ a ev s4 cur, Step c s3 a ev s4 → a.own = true → SourceMask.top s3.m.stack = some cur → c.sm.prio d ≤ c.sm.prio cur ∨
    ∃ x' x below, SourceMask.BlockedAt c.sm d x' below ∧ SourceMask.BlockedAt c.sm d x below ∧ SourceMask.SameSection x' x ∧ (x' :: below) <:+ s2.m.stack ∧ (x :: below) <:+ s3.m.stack
  /-- no handler of lower priority was started -/
  starts : ∀ h, .irq h ∈ as → c.sm.prio d ≤ c.sm.prio h
  bound : accesses d as < Executor.twoRounds (c.exec d ts)

/-! ## Proofs -/

@[simp] theorem upd_same {α} (f : Nat → α) (i : Nat) (a : α) : upd f i a i = a := by simp [upd]
theorem upd_ne {α} (f : Nat → α) {i j : Nat} (a : α) (h : j ≠ i) : upd f i a j = f j := by simp [upd, h]

theorem evsOf_append (d : Nat) (a b : List (Nat × Executor.Ev)) : evsOf d (a ++ b) = evsOf d a ++ evsOf d b := by simp [evsOf]

theorem evsOf_map_same (d : Nat) (ev : List Executor.Ev) : evsOf d (ev.map (d, ·)) = ev := by
  induction ev with
  | nil => rfl
  | cons e ev ih => simp [evsOf] at ih ⊢; exact ih

theorem evsOf_map_ne {d h : Nat} (hne : h ≠ d) (ev : List Executor.Ev) : evsOf d (ev.map (h, ·)) = [] := by
  induction ev with
  | nil => rfl
  | cons e ev ih => simp [evsOf, hne] at ih ⊢

theorem mem_evsOf {d : Nat} {e : Executor.Ev} {tr : List (Nat × Executor.Ev)} : e ∈ evsOf d tr ↔ (d, e) ∈ tr := by
  simp only [evsOf, List.mem_filterMap]
  constructor
  · rintro ⟨⟨a, b⟩, h1, h2⟩
    simp only at h2
    split at h2
    · cases h2; subst_vars; exact h1
    · cases h2
  · intro h; exact ⟨(d, e), h, by simp⟩

theorem accesses_append (d : Nat) (a b : List Act) : accesses d (a ++ b) = accesses d a + accesses d b := by
  induction a with
  | nil => simp [accesses]
  | cons x a ih => cases x <;> simp only [List.cons_append, accesses, ih] <;> omega

/-- the dispatcher is on the stack and has not returned -/
def Active (h : Nat) (l : List SourceMask.Rec) : Prop := .body h ∈ l

structure Inv (c : Cfg) (e0 : SourceMask.Regs) (s : St) : Prop where
  m : SourceMask.Inv c.sm e0 s.m
  exact : SourceMask.Exact c.sm e0 s.m
  act : ∀ h ts, c.tasks h = some ts → 1 ≤ c.sm.prio h → (s.ex h).d ≠ .idle → Active h s.m.stack
  ub : ∀ h ts, c.tasks h = some ts → (s.ex h).ub = true → (s.ex h).d ≠ .idle

/-- an access of a caller does not touch the dispatcher's program counter -/
theorem call_d {c : Executor.Cfg} {s s1 : Executor.St} {a : Executor.Act} {e : List Executor.Ev} (h : Executor.step c s a = some (s1, e)) (ha : callAct a = true) : s1.d = s.d ∧ s1.ub = s.ub := by
  cases a with
  | disp r => cases ha
  | thr i =>
    simp only [Executor.step, Executor.stepThr] at h
    (repeat' split at h) <;> (try cases h) <;> exact ⟨rfl, rfl⟩
  | _ =>
    simp only [Executor.step] at h
    (repeat' split at h) <;> (try cases h) <;> exact ⟨rfl, rfl⟩

theorem calls_d {c : Executor.Cfg} : ∀ (as : List Executor.Act) {s s1 : Executor.St} {e : List Executor.Ev}, Executor.exec c s as = some (s1, e) → (∀ a ∈ as, callAct a = true) → s1.d = s.d ∧ s1.ub = s.ub
  | [], s, s1, e, h, _ => by cases h; exact ⟨rfl, rfl⟩
  | a :: as, s, s1, e, h, ha => by
    obtain ⟨s2, e1, e2, h1, h2, -⟩ := Executor.exec_cons h
    have k1 := call_d h1 (ha a List.mem_cons_self)
    have k2 := calls_d as h2 (fun b hb => ha b (List.mem_cons_of_mem _ hb))
    exact ⟨k2.1.trans k1.1, k2.2.trans k1.2⟩

theorem ub_of_step {c : Executor.Cfg} {s s1 : Executor.St} {a : Executor.Act} {e : List Executor.Ev} (h : Executor.step c s a = some (s1, e)) : s.ub = false := by
  simp only [Executor.step] at h
  split at h
  · cases h
  · simpa using ‹¬ s.ub = true›

theorem disp_ub {c : Executor.Cfg} {s s1 : Executor.St} {r : Bool} {e : List Executor.Ev} (h : Executor.step c s (.disp r) = some (s1, e)) : s1.ub = true → s1.d ≠ .idle := by
  have h0 := ub_of_step h
  simp only [Executor.step, h0, Bool.false_eq_true, if_false, Executor.stepDisp] at h
  (repeat' split at h) <;> (try cases h) <;> simp_all

theorem inv_start {c : Cfg} {e0 : SourceMask.Regs} (h0 : c.sm.prio 0 = 0) {s : St} (h : Start c e0 s) : Inv c e0 s := by
  refine ⟨by rw [h.m]; exact SourceMask.inv_start e0 h0, by rw [h.m]; exact SourceMask.exact_start e0, ?_, ?_⟩
  · intro d ts hd _ hn
    obtain ⟨acts, tr, ha, hx⟩ := h.calls d ts hd
    exact absurd (calls_d acts hx ha).1 hn
  · intro d ts hd hu
    obtain ⟨acts, tr, ha, hx⟩ := h.calls d ts hd
    rw [(calls_d acts hx ha).2] at hu
    cases hu

/-- a handler that the hardware admits is not on the stack -/
theorem not_active {c : Cfg} {e0 : SourceMask.Regs} {s : St} (hi : SourceMask.Inv c.sm e0 s.m) {h cur : Nat} (ht : SourceMask.top s.m.stack = some cur) (ha : SourceMask.admits c.sm s.m cur h) : ¬ Active h s.m.stack := by
  intro hx
  have := SourceMask.top_max hi.ok ht hx (t := h) rfl
  have := ha.2.1
  omega

theorem active_push {h : Nat} {l : List SourceMask.Rec} (x : SourceMask.Rec) (ha : Active h l) : Active h (x :: l) := List.mem_cons_of_mem _ ha

theorem active_pop {h : Nat} {l : List SourceMask.Rec} {x : SourceMask.Rec} (ha : Active h (x :: l)) (hx : x ≠ .body h) : Active h l := by
  rcases List.mem_cons.1 ha with rfl | h
  · exact absurd rfl hx
  · exact h

/-- a step of `lock`, `critical_section::with` keeps every active dispatcher on the stack, except the one that returns -/
theorem active_code {c : SourceMask.Cfg} {m m' : SourceMask.St} {a : SourceMask.Act} (hm : SourceMask.Step c m a m') {h : Nat} (ha : Active h m.stack) (hf : a = .ret → SourceMask.top m.stack ≠ some h) : Active h m'.stack := by
  cases hm with
  | irq t cur ht hadm => exact active_push _ ha
  | lockCs t r ht hc hu hr => exact active_push _ ha
  | lock t r ht hc hu hr => exact active_push _ ha
  | userCs hc => exact active_push _ ha
  | nvicMask n hc => exact ha
  | ret t rest hst hne =>
    have := hf rfl
    rw [hst] at ha this
    exact active_pop ha (by rintro e; cases e; exact this rfl)
  | rd r i o rest hst hlt => rw [hst] at ha; exact active_push _ (active_pop ha (by simp))
  | rdEnd r i o rest hst hlt => rw [hst] at ha; exact active_push _ (active_pop ha (by simp))
  | cl r i o rest hst hlt => rw [hst] at ha; exact active_push _ (active_pop ha (by simp))
  | clEnd r i o rest hst hlt => rw [hst] at ha; exact active_push _ (active_pop ha (by simp))
  | unlock r o rest hst => rw [hst] at ha; exact active_push _ (active_pop ha (by simp))
  | st r i o rest hst hlt => rw [hst] at ha; exact active_push _ (active_pop ha (by simp))
  | stEnd r i o rest hst hlt => rw [hst] at ha; exact active_pop ha (by simp)
  | raiseCs r mm rest hst => rw [hst] at ha; exact active_push _ (active_pop ha (by simp))
  | unlockCs r mm rest hst => rw [hst] at ha; exact active_pop ha (by simp)

theorem irq_stack {c : SourceMask.Cfg} {m m' : SourceMask.St} {h : Nat} (hm : SourceMask.Step c m (.irq h) m') : m'.stack = .body h :: m.stack := by
  cases hm; rfl

theorem inv_step {c : Cfg} {e0 : SourceMask.Regs} (hwf : SourceMask.WellFormed c.sm) {s s' : St} {a : Act} {ev : List (Nat × Executor.Ev)} (hi : Inv c e0 s) (h : Step c s a ev s') : Inv c e0 s' := by
  have hcall : ∀ {d ts a e' ev}, c.tasks d = some ts → Executor.step (c.exec d ts) (s.ex d) a = some (e', ev) → callAct a = true → Inv c e0 { s with ex := upd s.ex d e' } := by
    intro d ts a e' ev hd hs ha
    obtain ⟨k1, k2⟩ := call_d hs ha
    refine ⟨hi.m, hi.exact, ?_, ?_⟩
    · intro h ts' hh hp hn
      by_cases e : h = d
      · subst e; simp only [upd_same, k1] at hn; exact hi.act h ts' hh hp hn
      · simp only [upd_ne _ _ e] at hn; exact hi.act h ts' hh hp hn
    · intro h ts' hh hu
      by_cases e : h = d
      · subst e; simp only [upd_same, k1, k2] at hu ⊢; exact hi.ub h ts' hh hu
      · simp only [upd_ne _ _ e] at hu ⊢; exact hi.ub h ts' hh hu
  cases h with
  | hw h ht => exact ⟨hi.m, hi.exact, hi.act, hi.ub⟩
  | unhw h ht => exact ⟨hi.m, hi.exact, hi.act, hi.ub⟩
  | irqHw h m' ht hp hbest hm =>
    refine ⟨SourceMask.inv_step hwf hi.m hm, SourceMask.exact_step hwf hi.m hi.exact (by first | assumption | simp) hm, ?_, hi.ub⟩
    intro h' ts hh hp' hn
    exact active_code hm (hi.act h' ts hh hp' hn) (by simp)
  | irqDisp h ts m' ht hp hbest hm =>
    refine ⟨SourceMask.inv_step hwf hi.m hm, SourceMask.exact_step hwf hi.m hi.exact (by first | assumption | simp) hm, ?_, ?_⟩
    · intro h' ts' hh hp' hn
      by_cases e : h' = h
      · subst e
        show Active h' m'.stack
        rw [irq_stack hm]; exact List.mem_cons_self
      · simp only [upd_ne _ _ e] at hn
        exact active_code hm (hi.act h' ts' hh hp' hn) (by simp)
    · intro h' ts' hh hu
      by_cases e : h' = h
      · subst e; simp
      · simp only [upd_ne _ _ e] at hu ⊢; exact hi.ub h' ts' hh hu
  | code a m' hq hc hm hni hnm hu hf =>
    refine ⟨SourceMask.inv_step hwf hi.m hm, SourceMask.exact_step hwf hi.m hi.exact (by first | assumption | simp) hm, ?_, hi.ub⟩
    intro h' ts hh hp' hn
    exact active_code hm (hi.act h' ts hh hp' hn) (fun he htop => hn (hf he h' ts htop hh))
  | spawn d ts u a e' ev hq hc hu hd hs => exact hcall hd hs rfl
  | wake d ts u e' ev hq hc hu hd hs => exact hcall hd hs rfl
  | call d ts e' ev hq hu hd hs => exact hcall hd hs rfl
  | disp h rest ts r e' ev hq hc hst hd hr hs =>
    refine ⟨hi.m, hi.exact, ?_, ?_⟩
    · intro h' ts' hh hp' hn
      by_cases e : h' = h
      · subst e; show SourceMask.Rec.body h' ∈ s.m.stack; rw [hst]; exact List.mem_cons_self
      · simp only [upd_ne _ _ e] at hn; exact hi.act h' ts' hh hp' hn
    · intro h' ts' hh hu
      by_cases e : h' = h
      · subst e; simp only [upd_same] at hu ⊢; exact disp_ub hs hu
      · simp only [upd_ne _ _ e] at hu ⊢; exact hi.ub h' ts' hh hu

theorem inv_exec {c : Cfg} {e0 : SourceMask.Regs} (hwf : SourceMask.WellFormed c.sm) {s s' : St} {as : List Act} {tr : List (Nat × Executor.Ev)} (hi : Inv c e0 s) (h : Exec c s as tr s') : Inv c e0 s' := by
  induction h with
  | nil => exact hi
  | snoc h hs ih => exact inv_step hwf ih hs

/-- what one step is to the executors of dispatcher `d` -/
theorem proj_step {c : Cfg} {e0 : SourceMask.Regs} (hwf : SourceMask.WellFormed c.sm) {s s' : St} {a : Act} {ev : List (Nat × Executor.Ev)} (hi : Inv c e0 s) (h : Step c s a ev s') {d : Nat} {ts : List Nat} (hd : c.tasks d = some ts) :
    ∃ acts, Executor.exec (c.exec d ts) (s.ex d) acts = some (s'.ex d, evsOf d ev) ∧ Executor.dispCount acts = accesses d [a] := by
  have one : ∀ {a : Executor.Act} {e' ev}, Executor.step (c.exec d ts) (s.ex d) a = some (e', ev) → Executor.exec (c.exec d ts) (s.ex d) [a] = some (e', ev) := by
    intro a e' ev h; simp [Executor.exec, h]
  have hcall : ∀ {d' ts' a e' ev}, c.tasks d' = some ts' → Executor.step (c.exec d' ts') (s.ex d') a = some (e', ev) → callAct a = true →
      ∃ acts, Executor.exec (c.exec d ts) (s.ex d) acts = some ((upd s.ex d' e') d, evsOf d (ev.map (d', ·))) ∧ Executor.dispCount acts = 0 := by
    intro d' ts' a e' ev hd' hs ha
    by_cases e : d' = d
    · subst e
      rw [hd] at hd'; cases hd'
      refine ⟨[a], by rw [upd_same, evsOf_map_same]; exact one hs, ?_⟩
      cases a <;> first | rfl | cases ha
    · exact ⟨[], by rw [upd_ne _ _ (Ne.symm e), evsOf_map_ne e]; rfl, rfl⟩
  cases h with
  | hw h ht => exact ⟨[], rfl, rfl⟩
  | unhw h ht => exact ⟨[], rfl, rfl⟩
  | irqHw h m' ht hp hbest hm =>
    refine ⟨[], rfl, ?_⟩
    have : h ≠ d := by rintro rfl; rw [hd] at ht; cases ht
    simp [accesses, Executor.dispCount, this]
  | irqDisp h ts' m' ht hp hbest hm =>
    by_cases e : h = d
    · subst e
      rw [hd] at ht; cases ht
      obtain ⟨hp1, hpend, cur, htop, hadm⟩ := hp
      have hidle : (s.ex h).d = .idle := by
        by_cases hn : (s.ex h).d = .idle
        · exact hn
        · exact absurd (hi.act h ts hd hp1 hn) (not_active hi.m htop hadm)
      have hub : (s.ex h).ub = false := by
        cases hu : (s.ex h).ub
        · rfl
        · exact absurd hidle (hi.ub h ts hd hu)
      have hirq : (s.ex h).irq = true := by simpa [pended, hd] using hpend
      refine ⟨[.disp false], ?_, by simp [accesses, Executor.dispCount]⟩
      apply one
      simp [Executor.step, hub, Executor.stepDisp, hidle, hirq, Cfg.exec, evsOf]
    · exact ⟨[], by simp only [upd_ne _ _ (Ne.symm e)]; rfl, by simp [accesses, Executor.dispCount, e]⟩
  | code a m' hq hc hm hni hnm hu hf => exact ⟨[], rfl, rfl⟩
  | spawn d' ts' u a e' ev hq hc hu hd' hs => exact hcall hd' hs rfl
  | wake d' ts' u e' ev hq hc hu hd' hs => exact hcall hd' hs rfl
  | call d' ts' e' ev hq hu hd' hs => exact hcall hd' hs rfl
  | disp h rest ts' r e' ev hq hc hst hd' hr hs =>
    by_cases e : h = d
    · subst e
      rw [hd] at hd'; cases hd'
      exact ⟨[.disp r], by rw [evsOf_map_same]; simp only [upd_same]; exact one hs, by simp [accesses, Executor.dispCount]⟩
    · exact ⟨[], by rw [evsOf_map_ne e]; simp only [upd_ne _ _ (Ne.symm e)]; rfl, by simp [accesses, Executor.dispCount, e]⟩

theorem dispCount_append (a b : List Executor.Act) : Executor.dispCount (a ++ b) = Executor.dispCount a + Executor.dispCount b := by
  induction a with
  | nil => simp [Executor.dispCount]
  | cons x a ih => cases x <;> simp only [List.cons_append, Executor.dispCount, ih] <;> omega

theorem proj_exec {c : Cfg} {e0 : SourceMask.Regs} (hwf : SourceMask.WellFormed c.sm) {s s' : St} {as : List Act} {tr : List (Nat × Executor.Ev)} (hi : Inv c e0 s) (h : Exec c s as tr s') {d : Nat} {ts : List Nat} (hd : c.tasks d = some ts) :
    ∃ acts, Executor.exec (c.exec d ts) (s.ex d) acts = some (s'.ex d, evsOf d tr) ∧ Executor.dispCount acts = accesses d as := by
  induction h with
  | nil => exact ⟨[], rfl, rfl⟩
  | snoc h hs ih =>
    obtain ⟨acts, h1, h2⟩ := ih
    obtain ⟨acts', h3, h4⟩ := proj_step hwf (inv_exec hwf hi h) hs hd
    exact ⟨acts ++ acts', by rw [evsOf_append]; exact Executor.exec_trans h1 h3, by rw [dispCount_append, accesses_append, h2, h4]⟩

/-- the executors of a dispatcher from the beginning -/
theorem proj_start {c : Cfg} {e0 : SourceMask.Regs} (hwf : SourceMask.WellFormed c.sm) (h0 : c.sm.prio 0 = 0) {s0 s : St} {as : List Act} {tr : List (Nat × Executor.Ev)} (hs : Start c e0 s0) (h : Exec c s0 as tr s) {d : Nat} {ts : List Nat} (hd : c.tasks d = some ts) :
    ∃ acts tr0, Executor.exec (c.exec d ts) Executor.init acts = some (s.ex d, tr0 ++ evsOf d tr) := by
  obtain ⟨acts0, tr0, -, hx0⟩ := hs.calls d ts hd
  obtain ⟨acts, hx, -⟩ := proj_exec hwf (inv_start h0 hs) h hd
  exact ⟨_, _, Executor.exec_trans hx0 hx⟩

/-- The system is an execution of the interrupt machine: everything proved of it (C46, C47, C52, C64, C74) holds. -/
theorem proj_srp {c : Cfg} {s s' : St} {as : List Act} {tr : List (Nat × Executor.Ev)} (h : Exec c s as tr s') : ∃ bs, SourceMask.Exec c.sm s.m bs s'.m := by
  induction h with
  | nil => exact ⟨[], .nil _⟩
  | snoc h hs ih =>
    obtain ⟨bs, hb⟩ := ih
    cases hs with
    | irqHw h m' ht hp hbest hm => exact ⟨_, .snoc hb hm⟩
    | irqDisp h ts m' ht hp hbest hm => exact ⟨_, .snoc hb hm⟩
    | code a m' hq hc hm hni hnm hu hf => exact ⟨_, .snoc hb hm⟩
    | _ => exact ⟨bs, hb⟩

theorem Exec.trans {c : Cfg} {s1 s2 s3 : St} {as bs : List Act} {t1 t2 : List (Nat × Executor.Ev)} (h1 : Exec c s1 as t1 s2) (h2 : Exec c s2 bs t2 s3) : Exec c s1 (as ++ bs) (t1 ++ t2) s3 := by
  induction h2 with
  | nil => simpa using h1
  | snoc h hs ih => rw [← List.append_assoc, ← List.append_assoc]; exact .snoc ih hs

/-- a dispatcher that can proceed and is admitted by the hardware must be taken -/
theorem ready_takeable {c : Cfg} {e0 : SourceMask.Regs} (hwf : SourceMask.WellFormed c.sm) {s : St} (hi : Inv c e0 s) {d : Nat} {ts : List Nat} (hd : c.tasks d = some ts) (hp : 1 ≤ c.sm.prio d) (hr : Executor.Ready (c.exec d ts) (s.ex d))
    {cur : Nat} (ht : SourceMask.top s.m.stack = some cur) (ha : SourceMask.admits c.sm s.m cur d) : takeable c s d := by
  refine ⟨hp, ?_, cur, ht, ha⟩
  have hidle : (s.ex d).d = .idle := by
    by_cases hn : (s.ex d).d = .idle
    · exact hn
    · exact absurd (hi.act d ts hd hp hn) (not_active hi.m ht ha)
  obtain ⟨s1, e, hs⟩ := hr
  have hz : decide (c.sm.prio d = 0) = false := by simp; omega
  simp only [pended, hd]
  simp only [Executor.step, Executor.stepDisp, hidle, Cfg.exec, hz, Bool.or_false] at hs
  split at hs
  · cases hs
  · split at hs
    · assumption
    · cases hs

/-- something at least as urgent as `d` is active, or is pending and never masked where `d` is not -/
def Urgent (c : Cfg) (d : Nat) (s : St) : Prop := ∃ h, c.sm.prio d ≤ c.sm.prio h ∧ (pended c s h = true ∧ (h = d ∨ c.sm.bind h = none) ∨ Active h s.m.stack)

theorem ready_urgent {c : Cfg} {s : St} (hi : Inv c e0 s) {d : Nat} {ts : List Nat} (hd : c.tasks d = some ts) (hp : 1 ≤ c.sm.prio d) (hr : Executor.Ready (c.exec d ts) (s.ex d)) : Urgent c d s := by
  refine ⟨d, Nat.le_refl _, ?_⟩
  by_cases hn : (s.ex d).d = .idle
  · refine .inl ⟨?_, .inl rfl⟩
    obtain ⟨s1, e, hs⟩ := hr
    have hz : decide (c.sm.prio d = 0) = false := by simp; omega
    simp only [pended, hd]
    simp only [Executor.step, Executor.stepDisp, hn, Cfg.exec, hz, Bool.or_false] at hs
    split at hs
    · cases hs
    · split at hs
      · assumption
      · cases hs
  · exact .inr (hi.act d ts hd hp hn)

/-- if the hardware would admit a handler less urgent than `d`, it would admit `d` -/
theorem admits_mono {c : Cfg} {e0 : SourceMask.Regs} (hwf : SourceMask.WellFormed c.sm) {d : Nat} (hpl : SourceMask.Plain c.sm e0 d) {s : St} (hi : Inv c e0 s) {t cur : Nat} (hp : 1 ≤ c.sm.prio t) (hlt : c.sm.prio t < c.sm.prio d) (ha : SourceMask.admits c.sm s.m cur t) :
    SourceMask.admits c.sm s.m cur d := by
  obtain ⟨m, n, hm, hn, hr⟩ := hpl.same t hp hlt
  obtain ⟨n', hn', hen⟩ := hpl.self (by omega)
  rw [hn] at hn'; cases hn'
  obtain ⟨h1, h2⟩ := SourceMask.admits_free hwf hpl hi.m hi.exact hp hm ha
  exact SourceMask.admits_of_free hwf hpl hi.m hi.exact (by omega) hn hen (by omega) (fun x hx hb => h2 x hx (hb.mono hm hn hr (by omega)))

/-- if the hardware would admit handler `t`, and something as urgent is pending or active, then something as urgent is to be taken -/
theorem urgent_takeable {c : Cfg} {e0 : SourceMask.Regs} {t : Nat} {s : St} (hi : Inv c e0 s) (hq : 1 ≤ c.sm.prio t) (hu : Urgent c t s) {cur : Nat} (ht : SourceMask.top s.m.stack = some cur)
    (ha : SourceMask.admits c.sm s.m cur t) : ∃ h, takeable c s h ∧ c.sm.prio t ≤ c.sm.prio h := by
  obtain ⟨h, hle, hpa⟩ := hu
  have hgt : c.sm.prio cur < c.sm.prio h := by have := ha.2.1; omega
  rcases hpa with ⟨hp, rfl | hn⟩ | hact
  · exact ⟨h, ⟨by omega, hp, cur, ht, ha⟩, hle⟩
  · exact ⟨h, ⟨by omega, hp, cur, ht, ha.1, hgt, fun n hn' => by rw [hn] at hn'; cases hn'⟩, hle⟩
  · have := SourceMask.top_max hi.m.ok ht hact (t := h) rfl
    omega

/-- while something as urgent as `t` is pending or active, no critical section that blocks `t` is entered and nothing less urgent is started -/
theorem urgent_step {c : Cfg} {e0 : SourceMask.Regs} (hwf : SourceMask.WellFormed c.sm) {t : Nat} (hpl : SourceMask.Plain c.sm e0 t) (hq : 1 ≤ c.sm.prio t) {s s' : St} {l2 : List SourceMask.Rec} {a : Act} {ev : List (Nat × Executor.Ev)} (hi : Inv c e0 s) (hu : Urgent c t s) (hs : Step c s a ev s')
    (ho : SourceMask.OldBlock c.sm t l2 s.m.stack) : SourceMask.OldBlock c.sm t l2 s'.m.stack ∧ ∀ h, a = .irq h → c.sm.prio t ≤ c.sm.prio h := by
  have instart : ∀ h, (∀ h', takeable c s h' → c.sm.prio h' ≤ c.sm.prio h) → takeable c s h → c.sm.prio t ≤ c.sm.prio h := by
    intro h hbest ⟨hp', hpend, cur, htop, hadm⟩
    rcases Nat.lt_or_ge (c.sm.prio h) (c.sm.prio t) with hlt | hge
    · -- the hardware admits `h`, hence everything more urgent
      obtain ⟨h', h1, h2⟩ := urgent_takeable hi hq hu htop (admits_mono hwf hpl hi hp' hlt hadm)
      exact Nat.le_trans h2 (hbest h' h1)
    · exact hge
  cases hs with
  | irqHw h m' ht hp' hbest hm => exact ⟨SourceMask.oldBlock_step hwf hpl hi.m hi.exact hq hm (fun _ _ _ => ⟨h, rfl⟩) ho, fun h' e => by cases e; exact instart h hbest hp'⟩
  | irqDisp h ts' m' ht hp' hbest hm => exact ⟨SourceMask.oldBlock_step hwf hpl hi.m hi.exact hq hm (fun _ _ _ => ⟨h, rfl⟩) ho, fun h' e => by cases e; exact instart h hbest hp'⟩
  | code a m' hqu hc hm hni hnm hu' hf =>
    refine ⟨SourceMask.oldBlock_step hwf hpl hi.m hi.exact hq hm (fun cur htop hadm => ?_) ho, by simp⟩
    obtain ⟨h', h1, -⟩ := urgent_takeable hi hq hu htop hadm
    exact absurd h1 (hqu h')
  | _ => exact ⟨ho, by simp⟩

theorem own_quiet {c : Cfg} {s s' : St} {a : Act} {ev : List (Nat × Executor.Ev)} (hs : Step c s a ev s') (hown : a.own = true) : quiet c s := by
  cases hs <;> first | assumption | cases hown

/-- while something as urgent as `t` is pending or active, code of lower priority makes a step only inside a critical section that blocks `t` -/
theorem urgent_next {c : Cfg} {e0 : SourceMask.Regs} (hwf : SourceMask.WellFormed c.sm) {t : Nat} (hpl : SourceMask.Plain c.sm e0 t) (hq : 1 ≤ c.sm.prio t) {s : St} (hi : Inv c e0 s) (hu : Urgent c t s) (hqu : quiet c s) {cur : Nat} (htop : SourceMask.top s.m.stack = some cur) :
    c.sm.prio t ≤ c.sm.prio cur ∨ SourceMask.BlockedP c.sm t s.m.stack := by
  rcases Nat.lt_or_ge (c.sm.prio cur) (c.sm.prio t) with hlt | hge
  · by_cases hb : SourceMask.BlockedP c.sm t s.m.stack
    · exact .inr hb
    · obtain ⟨h, h1, -⟩ := urgent_takeable hi hq hu htop (SourceMask.admitted_of_freeP hwf hpl hi.m hi.exact hq htop hlt hb)
      exact absurd h1 (hqu h)
  · exact .inl hge

/-- While dispatcher `d` can proceed, in every state from `s2` to `s3`. -/
theorem preempts_quiet {c : Cfg} {e0 : SourceMask.Regs} (hwf : SourceMask.WellFormed c.sm) {d : Nat} (hpl : SourceMask.Plain c.sm e0 d) {ts : List Nat} (hd : c.tasks d = some ts) (hp : 1 ≤ c.sm.prio d) {s2 s3 : St} {as : List Act} {tr : List (Nat × Executor.Ev)} (hi : Inv c e0 s2) (hx : Exec c s2 as tr s3)
    (hr : ∀ as' tr' s', Exec c s2 as' tr' s' → (∃ as'' tr'', as = as' ++ as'' ∧ tr = tr' ++ tr'') → Executor.Ready (c.exec d ts) (s'.ex d)) :
    (∀ cur, quiet c s3 → SourceMask.top s3.m.stack = some cur → c.sm.prio d ≤ c.sm.prio cur ∨
      ∃ x' x below, SourceMask.BlockedAt c.sm d x' below ∧ SourceMask.BlockedAt c.sm d x below ∧ SourceMask.SameSection x' x ∧ (x' :: below) <:+ s2.m.stack ∧ (x :: below) <:+ s3.m.stack) ∧
    (∀ h, .irq h ∈ as → c.sm.prio d ≤ c.sm.prio h) := by
  have key : SourceMask.OldBlock c.sm d s2.m.stack s3.m.stack ∧ (∀ h, .irq h ∈ as → c.sm.prio d ≤ c.sm.prio h) := by
    induction hx with
    | nil => exact ⟨SourceMask.oldBlock_refl _ _ _, by simp⟩
    | @snoc s s' as tr a ev h hs ih =>
      have hi' := inv_exec hwf hi h
      have hr' := hr _ _ _ h ⟨_, _, rfl, rfl⟩
      obtain ⟨ih1, ih2⟩ := ih (fun as' tr' s' hx' ⟨as'', tr'', h1, h2⟩ => hr as' tr' s' hx' ⟨as'' ++ [a], tr'' ++ ev, by rw [h1, List.append_assoc], by rw [h2, List.append_assoc]⟩)
      obtain ⟨k1, k2⟩ := urgent_step hwf hpl hp hi' (ready_urgent hi' hd hp hr') hs ih1
      refine ⟨k1, ?_⟩
      intro h hm
      rcases List.mem_append.1 hm with hm | hm
      · exact ih2 h hm
      · exact k2 h (List.mem_singleton.1 hm).symm
  refine ⟨?_, key.2⟩
  intro cur hqu htop
  have hi' := inv_exec hwf hi hx
  rcases urgent_next hwf hpl hp hi' (ready_urgent hi' hd hp (hr _ _ _ hx ⟨[], [], by simp, by simp⟩)) hqu htop with h | h
  · exact .inl h
  · exact .inr (key.1 h)

theorem preempts_of_ready {c : Cfg} {e0 : SourceMask.Regs} (hwf : SourceMask.WellFormed c.sm) {d : Nat} (hpl : SourceMask.Plain c.sm e0 d) {ts : List Nat} (hd : c.tasks d = some ts) (hp : 1 ≤ c.sm.prio d) {s2 s3 : St} {as : List Act} {tr : List (Nat × Executor.Ev)} (hi : Inv c e0 s2) (hx : Exec c s2 as tr s3)
    (hr : ∀ as' tr' s', Exec c s2 as' tr' s' → (∃ as'' tr'', as = as' ++ as'' ∧ tr = tr' ++ tr'') → Executor.Ready (c.exec d ts) (s'.ex d)) :
    (∀ a ev s4 cur, Step c s3 a ev s4 → a.own = true → SourceMask.top s3.m.stack = some cur → c.sm.prio d ≤ c.sm.prio cur ∨
      ∃ x' x below, SourceMask.BlockedAt c.sm d x' below ∧ SourceMask.BlockedAt c.sm d x below ∧ SourceMask.SameSection x' x ∧ (x' :: below) <:+ s2.m.stack ∧ (x :: below) <:+ s3.m.stack) ∧
    (∀ h, .irq h ∈ as → c.sm.prio d ≤ c.sm.prio h) :=
  ⟨fun a ev s4 cur hs hown htop => (preempts_quiet hwf hpl hd hp hi hx hr).1 cur (own_quiet hs hown) htop, (preempts_quiet hwf hpl hd hp hi hx hr).2⟩

theorem prefix_evs {d : Nat} {e : Executor.Ev} {tr1 tr tr' tr'' : List (Nat × Executor.Ev)} (h : (d, e) ∉ tr1 ++ tr) (ht : tr = tr' ++ tr'') : e ∉ evsOf d tr1 ++ evsOf d tr' := by
  subst ht
  rw [← evsOf_append, mem_evsOf]
  intro hm
  exact h (by rw [← List.append_assoc]; exact List.mem_append_left _ hm)

/-- A task that is due stays so until it is polled or completes. -/
theorem due_serve {c : Cfg} {e0 : SourceMask.Regs} (hwf : SourceMask.WellFormed c.sm) {d u : Nat} {ts : List Nat} (hd : c.tasks d = some ts) (hu : u ∈ ts) {s2 s3 : St} {as : List Act} {tr : List (Nat × Executor.Ev)} (hi : Inv c e0 s2)
    (hreach : ∃ acts e, Executor.exec (c.exec d ts) Executor.init acts = some (s2.ex d, e)) (hdue : Executor.Due (c.exec d ts) u (s2.ex d)) (hub : (s2.ex d).ub = false) (hx : Exec c s2 as tr s3)
    (hno : (d, .polled u) ∉ tr) (hcomp : (d, .completed u) ∉ tr) (hbad : ∀ t', (d, .badPoll t') ∉ tr) : Executor.Ready (c.exec d ts) (s3.ex d) ∧ accesses d as < Executor.twoRounds (c.exec d ts) := by
  obtain ⟨acts, hy, hc⟩ := proj_exec hwf hi hx hd
  obtain ⟨acts0, ev0, hy0⟩ := hreach
  have hns : ¬ Executor.Served u (evsOf d tr) := by
    rintro (h | h | ⟨t', h⟩)
    · exact hno (mem_evsOf.1 h)
    · exact hcomp (mem_evsOf.1 h)
    · exact hbad t' (mem_evsOf.1 h)
  have hk := (Executor.due_kept (show u ∈ (c.exec d ts).ts from hu) hdue hy).resolve_left hns
  have hub' := (Executor.ub_exec hub hy).resolve_right (fun ⟨t', h⟩ => hbad t' (mem_evsOf.1 h))
  refine ⟨Executor.due_ready hk hub', ?_⟩
  rw [← hc]
  refine Nat.lt_of_not_le fun hle => hns (Executor.due_exec (show u ∈ (c.exec d ts).ts from hu) hdue hy ?_)
  have := Executor.reach_bound hy0 u
  omega

/-- **C91** (spawn) If all tasks of lower priority are bound to interrupts of the same register (32 interrupts) as the task's dispatcher (`hpl`): in a running application, handler `i` (any handler, at any depth of preemption) makes the access that decides that its `spawn` of task `u` succeeds (`s0` to `s1`); the call returns (`s2`); the task has not been polled up to `s3`. Then from `s2` to `s3` no code of lower priority than the task has
run, except inside critical sections that were entered before the call returned and block the task; nothing of lower priority was started; and the dispatcher has made less than two rounds over its tasks. -/
theorem C91_spawned_preempts_partial {c : Cfg} {e0 : SourceMask.Regs} (hwf : SourceMask.WellFormed c.sm) {d : Nat} (hpl : SourceMask.Plain c.sm e0 d) (h0 : c.sm.prio 0 = 0) {st s0 s1 s2 s3 : St} {as0 as1 as2 : List Act} {tr0 tr1 tr2 : List (Nat × Executor.Ev)} {u a : Nat} {ts : List Nat}
    (hst : Start c e0 st) (hx0 : Exec c st as0 tr0 s0) (hd : c.tasks d = some ts) (hu : u ∈ ts) (hp : 1 ≤ c.sm.prio d)
    (hok : Step c s0 (.call d) [(d, .ok u a)] s1) (hx1 : Exec c s1 as1 tr1 s2) (hret : (s2.ex d).pc (depth s0.m.stack) = .idle) (hx2 : Exec c s2 as2 tr2 s3)
    (hno : (d, .polled u) ∉ tr1 ++ tr2) (hbad : ∀ t', (d, .badPoll t') ∉ tr1 ++ tr2) : Preempts c d ts s2 as2 s3 := by
  have hi0 := inv_exec hwf (inv_start h0 hst) hx0
  have hi1 := inv_step hwf hi0 hok
  have hi2 := inv_exec hwf hi1 hx1
  obtain ⟨acts0, e0, hy0⟩ := proj_start hwf h0 hst hx0 hd
  obtain ⟨acts1, hy1, -⟩ := proj_exec hwf hi1 hx1 hd
  -- the access is one of the executor
  have hstep : Executor.step (c.exec d ts) (s0.ex d) (.thr (depth s0.m.stack)) = some (s1.ex d, [.ok u a]) := by
    generalize htr : [(d, Executor.Ev.ok u a)] = tr at hok
    cases hok with
    | call _ ts' e' ev hq hu' hd' hs =>
      rw [hd] at hd'; cases hd'
      have : ev = [.ok u a] := by
        have := congrArg (evsOf d) htr
        rw [evsOf_map_same] at this
        rw [← this]; simp [evsOf]
      simp only [upd_same]
      rw [hs, this]
  have serve : ∀ as' tr' s', Exec c s2 as' tr' s' → (∃ as'' tr'', as2 = as' ++ as'' ∧ tr2 = tr' ++ tr'') → Executor.Ready (c.exec d ts) (s'.ex d) ∧ accesses d as' < Executor.twoRounds (c.exec d ts) := by
    rintro as' tr' s' hx' ⟨as'', tr'', -, ht⟩
    obtain ⟨acts2, hy2, hc⟩ := proj_exec hwf hi2 hx' hd
    rcases Executor.C37_spawned_is_polled hy0 (show u ∈ (c.exec d ts).ts from hu) hstep rfl hy1 hret hy2 with h | ⟨t', h⟩ | h
    · exact absurd h (prefix_evs hno ht)
    · exact absurd h (prefix_evs (hbad t') ht)
    · rw [← hc]; exact h
  obtain ⟨h1, h2⟩ := preempts_of_ready hwf hpl hd hp hi2 hx2 (fun as' tr' s' hx' hpre => (serve as' tr' s' hx' hpre).1)
  exact ⟨h1, h2, (serve as2 tr2 s3 hx2 ⟨[], [], by simp, by simp⟩).2⟩

/-- **C91** (wake) Under the same conditions, the same for a waker of the live task `u`, called by any handler (`s0` to `s1`), until the task is polled or, if it was just being polled when the waker was called, completes in that poll. -/
theorem C91_woken_preempts_partial {c : Cfg} {e0 : SourceMask.Regs} (hwf : SourceMask.WellFormed c.sm) {d : Nat} (hpl : SourceMask.Plain c.sm e0 d) (h0 : c.sm.prio 0 = 0) {st s0 s1 s2 s3 : St} {as0 as1 as2 : List Act} {tr0 ev1 tr1 tr2 : List (Nat × Executor.Ev)} {u : Nat} {ts : List Nat}
    (hst : Start c e0 st) (hx0 : Exec c st as0 tr0 s0) (hd : c.tasks d = some ts) (hp : 1 ≤ c.sm.prio d) (hlive : (s0.ex d).running u = true)
    (hcall : Step c s0 (.wake d u) ev1 s1) (hx1 : Exec c s1 as1 tr1 s2) (hret : (s2.ex d).pc (depth s0.m.stack) = .idle) (hx2 : Exec c s2 as2 tr2 s3)
    (hno : (d, .polled u) ∉ tr1 ++ tr2) (hcomp : (d, .completed u) ∉ tr1 ++ tr2) (hbad : ∀ t', (d, .badPoll t') ∉ tr1 ++ tr2) : Preempts c d ts s2 as2 s3 := by
  have hi0 := inv_exec hwf (inv_start h0 hst) hx0
  have hi1 := inv_step hwf hi0 hcall
  have hi2 := inv_exec hwf hi1 hx1
  obtain ⟨acts0, e0, hy0⟩ := proj_start hwf h0 hst hx0 hd
  obtain ⟨acts1, hy1, -⟩ := proj_exec hwf hi1 hx1 hd
  have hstep : ∃ ev, Executor.step (c.exec d ts) (s0.ex d) (.callWake (depth s0.m.stack) u) = some (s1.ex d, ev) := by
    cases hcall with
    | wake _ ts' _ e' ev hq hc hu' hd' hs =>
      rw [hd] at hd'; cases hd'
      exact ⟨ev, by simp only [upd_same]; exact hs⟩
  obtain ⟨ev, hstep⟩ := hstep
  have serve : ∀ as' tr' s', Exec c s2 as' tr' s' → (∃ as'' tr'', as2 = as' ++ as'' ∧ tr2 = tr' ++ tr'') → Executor.Ready (c.exec d ts) (s'.ex d) ∧ accesses d as' < Executor.twoRounds (c.exec d ts) := by
    rintro as' tr' s' hx' ⟨as'', tr'', -, ht⟩
    obtain ⟨acts2, hy2, hc⟩ := proj_exec hwf hi2 hx' hd
    rcases Executor.C37_woken_is_polled hy0 hlive hstep hy1 hret hy2 with h | ⟨-, h⟩ | ⟨t', h⟩ | h
    · exact absurd h (prefix_evs hno ht)
    · exact absurd h (prefix_evs hcomp ht)
    · exact absurd h (prefix_evs (hbad t') ht)
    · rw [← hc]; exact h
  obtain ⟨h1, h2⟩ := preempts_of_ready hwf hpl hd hp hi2 hx2 (fun as' tr' s' hx' hpre => (serve as' tr' s' hx' hpre).1)
  exact ⟨h1, h2, (serve as2 tr2 s3 hx2 ⟨[], [], by simp, by simp⟩).2⟩

/-- **C91** (consequence) If nothing of lower priority is inside a critical section blocking the task when the call returns, no code of lower priority makes a step before the task is polled; in particular the caller, if it has a lower priority, does not. -/
theorem C91_runs_first_partial {c : Cfg} {d : Nat} {ts : List Nat} {s2 s3 : St} {as : List Act} (h : Preempts c d ts s2 as s3) (hb : ¬ SourceMask.BlockedP c.sm d s2.m.stack) {a : Act} {ev : List (Nat × Executor.Ev)} {s4 : St} {cur : Nat}
    (hs : Step c s3 a ev s4) (hown : a.own = true) (ht : SourceMask.top s3.m.stack = some cur) : c.sm.prio d ≤ c.sm.prio cur := by
  rcases h.next a ev s4 cur hs hown ht with h | ⟨x, -, b, h1, -, -, h2, -⟩
  · exact h
  · exact absurd ⟨x, b, h2, h1⟩ hb

theorem best_exists {c : Cfg} {e0 : SourceMask.Regs} {d : Nat} (hpl : SourceMask.Plain c.sm e0 d) {s : St} {h : Nat} (ht : takeable c s h) : ∃ h', takeable c s h' ∧ c.sm.prio h ≤ c.sm.prio h' ∧ ∀ k, takeable c s k → c.sm.prio k ≤ c.sm.prio h' := by
  obtain ⟨b, hb⟩ := hpl.bounded
  have : ∀ n h, b - c.sm.prio h ≤ n → takeable c s h → ∃ h', takeable c s h' ∧ c.sm.prio h ≤ c.sm.prio h' ∧ ∀ k, takeable c s k → c.sm.prio k ≤ c.sm.prio h' := by
    intro n
    induction n with
    | zero =>
      intro h hn ht
      refine ⟨h, ht, Nat.le_refl _, fun k _ => ?_⟩
      have := hb k
      omega
    | succ n ih =>
      intro h hn ht
      by_cases hk : ∃ k, takeable c s k ∧ c.sm.prio h < c.sm.prio k
      · obtain ⟨k, hk, hlt⟩ := hk
        obtain ⟨h', h1, h2, h3⟩ := ih k (by omega) hk
        exact ⟨h', h1, by omega, h3⟩
      · exact ⟨h, ht, Nat.le_refl _, fun k hk' => Nat.le_of_not_lt fun hlt => hk ⟨k, hk', hlt⟩⟩
  exact this _ h (Nat.le_refl _) ht

/-- the processor can always take an interrupt that has to be taken -/
theorem take_exists {c : Cfg} {e0 : SourceMask.Regs} {d : Nat} (hpl : SourceMask.Plain c.sm e0 d) {s : St} {h : Nat} (ht : takeable c s h) : ∃ h' s', c.sm.prio h ≤ c.sm.prio h' ∧ Step c s (.irq h') [] s' := by
  obtain ⟨h', h1, h2, h3⟩ := best_exists hpl ht
  obtain ⟨hp, hpend, cur, htop, hadm⟩ := h1
  cases hts : c.tasks h' with
  | none => exact ⟨h', _, h2, .irqHw h' _ hts ⟨hp, hpend, cur, htop, hadm⟩ h3 (.irq h' cur htop hadm)⟩
  | some ts => exact ⟨h', _, h2, .irqDisp h' ts _ hts ⟨hp, hpend, cur, htop, hadm⟩ h3 (.irq h' cur htop hadm)⟩

/-- **C91** (at once) While a task of dispatcher `d` is due (its dispatcher can proceed), and code of lower priority is at the processor, in no critical section that blocks `d`: the next step is that `d` or something at least as urgent takes over, and this step is possible. -/
theorem C91_taken_at_once_partial {c : Cfg} {e0 : SourceMask.Regs} (hwf : SourceMask.WellFormed c.sm) {d : Nat} (hpl : SourceMask.Plain c.sm e0 d) (h0 : c.sm.prio 0 = 0) {st s : St} {as : List Act} {tr : List (Nat × Executor.Ev)} (hst : Start c e0 st) (hx : Exec c st as tr s) {ts : List Nat} (hd : c.tasks d = some ts) (hp : 1 ≤ c.sm.prio d)
    (hr : Executor.Ready (c.exec d ts) (s.ex d)) {cur : Nat} (ht : SourceMask.top s.m.stack = some cur) (hlt : c.sm.prio cur < c.sm.prio d) (hb : ¬ SourceMask.BlockedP c.sm d s.m.stack) :
    (∃ h s', c.sm.prio d ≤ c.sm.prio h ∧ Step c s (.irq h) [] s') ∧ ∀ a ev s', Step c s a ev s' → a.own = true → False := by
  have hi := inv_exec hwf (inv_start h0 hst) hx
  have htk := ready_takeable hwf hi hd hp hr ht (SourceMask.admitted_of_freeP hwf hpl hi.m hi.exact hp ht hlt hb)
  refine ⟨take_exists hpl htk, ?_⟩
  intro a ev s' hs hown
  have hq : quiet c s := by
    cases hs <;> first | assumption | cases hown
  exact hq d htk

end Verif.MaskSystem
