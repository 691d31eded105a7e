import Verif.EspSystem.Model
import Verif.Esp32.Blocking
import Verif.Executor.Props

/-!
# C92: a spawned, woken or requested task runs before anything of lower priority, on ESP32-C3/C6
-/

namespace Verif.EspSystem

open Verif

/-! ## Specification -/

/-- events of the executors of dispatcher `d` -/
def evsOf (d : Nat) (tr : List (Nat × Executor.Ev)) : List Executor.Ev := tr.filterMap fun e => if e.1 = d then some e.2 else none

/-- number of accesses of dispatcher `d` -/
def accesses (d : Nat) : List Act → Nat
  | [] => 0
  | .disp h _ :: as | .unpend h :: as => accesses d as + (if h = d then 1 else 0)
  | _ :: as => accesses d as

/-- From `s2` to `s3`, and in the next step, no code of a lower priority than handler `d` runs, except inside a critical section that was entered before `s2`, and none is started. -/
structure Preempts (c : Cfg) (d : Nat) (s2 : St) (as : List Act) (s3 : St) : Prop where
  /-- who runs has at least the priority of `d`, or is held up in a critical section entered before `s2` that blocks `d` -/
  next : ∀ a ev s4 cur, Step c s3 a ev s4 → a.own = true → Esp32.top s3.m.stack = some cur → c.hw.prio d ≤ c.hw.prio cur ∨
    ∃ x below, Esp32.BlockedAt c.hw (c.hw.prio d) x below ∧ (x :: below) <:+ s2.m.stack ∧ (x :: below) <:+ s3.m.stack
  /-- no handler of lower priority was started -/
  starts : ∀ h, .irq h ∈ as → c.hw.prio d ≤ c.hw.prio h

/-! ## Proofs -/

@[simp] theorem upd_same {α} (f : Nat → α) (i : Nat) (a : α) : upd f i a i = a := by simp [upd]
theorem upd_ne {α} (f : Nat → α) {i j : Nat} (a : α) (h : j ≠ i) : upd f i a j = f j := by simp [upd, h]

theorem evsOf_append (d : Nat) (a b : List (Nat × Executor.Ev)) : evsOf d (a ++ b) = evsOf d a ++ evsOf d b := by simp [evsOf]

theorem evsOf_map_same (d : Nat) (ev : List Executor.Ev) : evsOf d (ev.map (d, ·)) = ev := by
  induction ev with
  | nil => rfl
  | cons e ev ih => simp [evsOf] at ih ⊢; exact ih

theorem evsOf_map_ne {d h : Nat} (hne : h ≠ d) (ev : List Executor.Ev) : evsOf d (ev.map (h, ·)) = [] := by
  induction ev with
  | nil => rfl
  | cons e ev ih => simp [evsOf, hne] at ih ⊢

theorem mem_evsOf {d : Nat} {e : Executor.Ev} {tr : List (Nat × Executor.Ev)} : e ∈ evsOf d tr ↔ (d, e) ∈ tr := by
  simp only [evsOf, List.mem_filterMap]
  constructor
  · rintro ⟨⟨a, b⟩, h1, h2⟩
    simp only at h2
    split at h2
    · cases h2; subst_vars; exact h1
    · cases h2
  · intro h; exact ⟨(d, e), h, by simp⟩

theorem accesses_append (d : Nat) (a b : List Act) : accesses d (a ++ b) = accesses d a + accesses d b := by
  induction a with
  | nil => simp [accesses]
  | cons x a ih => cases x <;> simp only [List.cons_append, accesses, ih] <;> omega

/-- the handler is on the stack and its body is not over -/
def Active (h : Nat) (l : List Esp32.Rec) : Prop := ∃ y ∈ l, Esp32.RunningOf h y

structure Inv (c : Cfg) (t0 : Nat) (s : St) : Prop where
  m : Esp32.Inv c.hw t0 s.m
  act : ∀ h ts, c.tasks h = some ts → 1 ≤ c.hw.prio h → (s.ex h).d ≠ .idle → Active h s.m.stack
  ub : ∀ h ts, c.tasks h = some ts → (s.ex h).ub = true → (s.ex h).d ≠ .idle
  /-- a dispatcher that has been entered and has not started has its line asserted -/
  line : ∀ h ts prev, c.tasks h = some ts → .enter h prev ∈ s.m.stack → (s.ex h).d = .idle → (s.ex h).irq = true

/-- an access of a caller does not touch the dispatcher's program counter -/
theorem call_d {c : Executor.Cfg} {s s1 : Executor.St} {a : Executor.Act} {e : List Executor.Ev} (h : Executor.step c s a = some (s1, e)) (ha : callAct a = true) : s1.d = s.d ∧ s1.ub = s.ub := by
  cases a with
  | disp r => cases ha
  | thr i =>
    simp only [Executor.step, Executor.stepThr] at h
    (repeat' split at h) <;> (try cases h) <;> exact ⟨rfl, rfl⟩
  | _ =>
    simp only [Executor.step] at h
    (repeat' split at h) <;> (try cases h) <;> exact ⟨rfl, rfl⟩

theorem calls_d {c : Executor.Cfg} : ∀ (as : List Executor.Act) {s s1 : Executor.St} {e : List Executor.Ev}, Executor.exec c s as = some (s1, e) → (∀ a ∈ as, callAct a = true) → s1.d = s.d ∧ s1.ub = s.ub
  | [], s, s1, e, h, _ => by cases h; exact ⟨rfl, rfl⟩
  | a :: as, s, s1, e, h, ha => by
    obtain ⟨s2, e1, e2, h1, h2, -⟩ := Executor.exec_cons h
    have k1 := call_d h1 (ha a List.mem_cons_self)
    have k2 := calls_d as h2 (fun b hb => ha b (List.mem_cons_of_mem _ hb))
    exact ⟨k2.1.trans k1.1, k2.2.trans k1.2⟩

theorem ub_of_step {c : Executor.Cfg} {s s1 : Executor.St} {a : Executor.Act} {e : List Executor.Ev} (h : Executor.step c s a = some (s1, e)) : s.ub = false := by
  simp only [Executor.step] at h
  split at h
  · cases h
  · simpa using ‹¬ s.ub = true›

theorem disp_ub {c : Executor.Cfg} {s s1 : Executor.St} {r : Bool} {e : List Executor.Ev} (h : Executor.step c s (.disp r) = some (s1, e)) : s1.ub = true → s1.d ≠ .idle := by
  have h0 := ub_of_step h
  simp only [Executor.step, h0, Bool.false_eq_true, if_false, Executor.stepDisp] at h
  (repeat' split at h) <;> (try cases h) <;> simp_all

/-- callers do not withdraw the interrupt -/
theorem call_irq {c : Executor.Cfg} {s s1 : Executor.St} {a : Executor.Act} {e : List Executor.Ev} (h : Executor.step c s a = some (s1, e)) (ha : callAct a = true) : s.irq = true → s1.irq = true := by
  intro hi
  cases a with
  | disp r => cases ha
  | thr i =>
    simp only [Executor.step, Executor.stepThr] at h
    (repeat' split at h) <;> (try cases h) <;> first | rfl | exact hi
  | _ =>
    simp only [Executor.step] at h
    (repeat' split at h) <;> (try cases h) <;> exact hi

/-- nor does the dispatcher once it has started -/
theorem disp_irq {c : Executor.Cfg} {s s1 : Executor.St} {r : Bool} {e : List Executor.Ev} (h : Executor.step c s (.disp r) = some (s1, e)) (hd : s.d ≠ .idle) : s1.irq = s.irq := by
  simp only [Executor.step, Executor.stepDisp] at h
  (repeat' split at h) <;> (try cases h) <;> first | rfl | exact absurd ‹_› hd

theorem inv_start {c : Cfg} {t0 : Nat} (h0 : c.hw.prio 0 = 0) {s : St} (h : Start c t0 s) : Inv c t0 s := by
  refine ⟨by rw [h.m]; exact Esp32.inv_start h0, ?_, ?_, ?_⟩
  · intro d ts hd _ hn
    obtain ⟨acts, tr, ha, hx⟩ := h.calls d ts hd
    exact absurd (calls_d acts hx ha).1 hn
  · intro d ts hd hu
    obtain ⟨acts, tr, ha, hx⟩ := h.calls d ts hd
    rw [(calls_d acts hx ha).2] at hu
    cases hu
  · intro d ts prev hd hm
    rw [h.m] at hm
    simp [Esp32.start] at hm

/-- a handler that the hardware admits is not on the stack, or its body is over -/
theorem not_active {c : Cfg} (hwf : Esp32.WellFormed c.hw) {t0 : Nat} {s : St} (hi : Esp32.Inv c.hw t0 s.m) {h : Nat} (hp : 1 ≤ c.hw.prio h) (ha : Esp32.admits s.m (c.hw.prio h)) : ¬ Active h s.m.stack := by
  rintro ⟨y, hy, hr⟩
  have := (Esp32.level_running hwf.ceil hp hr hi.ok hy).1
  have := ha.2
  rw [hi.thr] at this
  omega

theorem active_push {h : Nat} {l : List Esp32.Rec} (x : Esp32.Rec) (ha : Active h l) : Active h (x :: l) := by
  obtain ⟨y, hy, hr⟩ := ha; exact ⟨y, List.mem_cons_of_mem _ hy, hr⟩

theorem active_pop {h : Nat} {l : List Esp32.Rec} {x : Esp32.Rec} (ha : Active h (x :: l)) (hx : ¬ Esp32.RunningOf h x) : Active h l := by
  obtain ⟨y, hy, hr⟩ := ha
  rcases List.mem_cons.1 hy with rfl | hy
  · exact absurd hr hx
  · exact ⟨y, hy, hr⟩

theorem active_swap {h : Nat} {l : List Esp32.Rec} {x y : Esp32.Rec} (ha : Active h (x :: l)) (hx : Esp32.RunningOf h x → Esp32.RunningOf h y) : Active h (y :: l) := by
  by_cases hr : Esp32.RunningOf h x
  · exact ⟨y, List.mem_cons_self, hx hr⟩
  · exact active_push _ (active_pop ha hr)

/-- a step of `run`, `lock`, `critical_section::with` keeps every active handler active, except the one whose body ends -/
theorem active_code {c : Esp32.Cfg} {m m' : Esp32.St} {a : Esp32.Act} (hm : Esp32.Step c m a m') {h : Nat} (ha : Active h m.stack) (hf : a = .finish → Esp32.top m.stack ≠ some h) : Active h m'.stack := by
  cases hm with
  | irq t hp ho hadm => exact active_push _ ha
  | lockCs t r ht hc hu hr => exact active_push _ ha
  | lock t r ht hc hu hr => exact active_push _ ha
  | userCs hc => exact active_push _ ha
  | readInitial t prev rest hst => rw [hst] at ha; exact active_swap ha id
  | raise r cur rest hst => rw [hst] at ha; exact active_push _ (active_pop ha id)
  | raiseCs r mm rest hst => rw [hst] at ha; exact active_push _ (active_pop ha id)
  | unlock r cur rest hst => rw [hst] at ha; exact active_pop ha id
  | unlockCs r mm rest hst => rw [hst] at ha; exact active_pop ha id
  | finish1 t prev rest hst hp =>
    have := hf rfl
    rw [hst] at ha this
    exact active_push _ (active_pop ha (by rintro rfl; exact this rfl))
  | finish t prev i rest hst =>
    have := hf rfl
    rw [hst] at ha this
    exact active_push _ (active_pop ha (by rintro rfl; exact this rfl))
  | ret t prev rest hst => rw [hst] at ha; exact active_pop ha id

theorem irq_stack {c : Esp32.Cfg} {m m' : Esp32.St} {h : Nat} (hm : Esp32.Step c m (.irq h) m') : m'.stack = .enter h m.thr :: m.stack := by
  cases hm; rfl

/-- handlers are entered by interrupts only; calling `run` ends the entry -/
theorem enter_code {c : Esp32.Cfg} {m m' : Esp32.St} {a : Esp32.Act} (hm : Esp32.Step c m a m') (hni : ∀ t, a ≠ .irq t) {h prev : Nat} (he : .enter h prev ∈ m'.stack) : .enter h prev ∈ m.stack := by
  cases hm with
  | irq t hp ho hadm => exact absurd rfl (hni t)
  | lockCs t r ht hc hu hr => simpa using he
  | lock t r ht hc hu hr => simpa using he
  | userCs hc => simpa using he
  | readInitial t prev rest hst => rw [hst]; simp at he ⊢; exact .inr he
  | raise r cur rest hst => rw [hst]; simp at he ⊢; exact he
  | raiseCs r mm rest hst => rw [hst]; simp at he ⊢; exact he
  | unlock r cur rest hst => rw [hst]; exact List.mem_cons_of_mem _ he
  | unlockCs r mm rest hst => rw [hst]; exact List.mem_cons_of_mem _ he
  | finish1 t prev rest hst hp => rw [hst]; simp at he ⊢; exact he
  | finish t prev i rest hst => rw [hst]; simp at he ⊢; exact he
  | ret t prev rest hst => rw [hst]; exact List.mem_cons_of_mem _ he

/-- a handler whose body runs has not been entered a second time -/
theorem body_not_entered {c : Cfg} (hwf : Esp32.WellFormed c.hw) {t0 : Nat} {s : St} (hi : Esp32.Inv c.hw t0 s.m) {h prev prev' : Nat} {i : Option Nat} {rest : List Esp32.Rec} (hst : s.m.stack = .body h prev i :: rest) : .enter h prev' ∉ s.m.stack := by
  intro he
  have hok := hi.ok
  rw [hst] at he hok
  rcases List.mem_cons.1 he with he | he
  · cases he
  · have hne : rest ≠ [] := by rintro rfl; cases he
    have hadm := (Esp32.act_admitted hok (t := h) rfl hne).2
    rcases hok with ⟨h1, -⟩ | hok
    · exact hne h1
    · have := (Esp32.level_running hwf.ceil hok.2.1 (m := h) (y := .enter h prev') rfl hok.2.2.2.2.2.2 he).1
      omega

theorem inv_step {c : Cfg} {t0 : Nat} (hwf : Esp32.WellFormed c.hw) {s s' : St} {a : Act} {ev : List (Nat × Executor.Ev)} (hi : Inv c t0 s) (h : Step c s a ev s') : Inv c t0 s' := by
  have hcall : ∀ {d ts a e' ev}, c.tasks d = some ts → Executor.step (c.exec d ts) (s.ex d) a = some (e', ev) → callAct a = true → Inv c t0 { s with ex := upd s.ex d e' } := by
    intro d ts a e' ev hd hs ha
    obtain ⟨k1, k2⟩ := call_d hs ha
    have k3 := call_irq hs ha
    refine ⟨hi.m, ?_, ?_, ?_⟩
    · intro h ts' hh hp hn
      by_cases e : h = d
      · subst e; simp only [upd_same, k1] at hn; exact hi.act h ts' hh hp hn
      · simp only [upd_ne _ _ e] at hn; exact hi.act h ts' hh hp hn
    · intro h ts' hh hu
      by_cases e : h = d
      · subst e; simp only [upd_same, k1, k2] at hu ⊢; exact hi.ub h ts' hh hu
      · simp only [upd_ne _ _ e] at hu ⊢; exact hi.ub h ts' hh hu
    · intro h ts' prev hh hm hn
      by_cases e : h = d
      · subst e; simp only [upd_same, k1] at hn ⊢; exact k3 (hi.line h ts' prev hh hm hn)
      · simp only [upd_ne _ _ e] at hn ⊢; exact hi.line h ts' prev hh hm hn
  cases h with
  | hw h ht => exact ⟨hi.m, hi.act, hi.ub, hi.line⟩
  | unhw h ht => exact ⟨hi.m, hi.act, hi.ub, hi.line⟩
  | irq h m' hp hbest hm =>
    refine ⟨Esp32.inv_step hi.m hm, ?_, hi.ub, ?_⟩
    · intro h' ts hh hp' hn
      exact active_code hm (hi.act h' ts hh hp' hn) (by simp)
    · intro h' ts prev hh he hn
      simp only [irq_stack hm] at he
      rcases List.mem_cons.1 he with he | he
      · cases he
        have := hp.2.1
        simpa [pended, hh] using this
      · exact hi.line h' ts prev hh he hn
  | unpend h prev rest ts hq hst ht hd =>
    refine ⟨hi.m, ?_, ?_, ?_⟩
    · intro h' ts' hh hp' hn
      by_cases e : h' = h
      · subst e
        exact ⟨.enter h' prev, by rw [hst]; exact List.mem_cons_self, rfl⟩
      · simp only [upd_ne _ _ e] at hn
        exact hi.act h' ts' hh hp' hn
    · intro h' ts' hh hu
      by_cases e : h' = h
      · subst e; simp
      · simp only [upd_ne _ _ e] at hu ⊢; exact hi.ub h' ts' hh hu
    · intro h' ts' prev' hh he hn
      by_cases e : h' = h
      · subst e; simp at hn
      · simp only [upd_ne _ _ e] at hn ⊢; exact hi.line h' ts' prev' hh he hn
  | code a m' hq hc hm hni hu hrun hf =>
    refine ⟨Esp32.inv_step hi.m hm, ?_, hi.ub, ?_⟩
    · intro h' ts hh hp' hn
      exact active_code hm (hi.act h' ts hh hp' hn) (fun he htop => hn (hf he h' ts htop hh))
    · intro h' ts prev hh he hn
      exact hi.line h' ts prev hh (enter_code hm hni he) hn
  | spawn d ts u a e' ev hq hc hu hd hs => exact hcall hd hs rfl
  | wake d ts u e' ev hq hc hu hd hs => exact hcall hd hs rfl
  | call d ts e' ev hq hu hd hs => exact hcall hd hs rfl
  | disp h prev i rest ts r e' ev hq hc hst hd hr hs =>
    refine ⟨hi.m, ?_, ?_, ?_⟩
    · intro h' ts' hh hp' hn
      by_cases e : h' = h
      · subst e; exact ⟨.body h' prev i, by rw [hst]; exact List.mem_cons_self, rfl⟩
      · simp only [upd_ne _ _ e] at hn; exact hi.act h' ts' hh hp' hn
    · intro h' ts' hh hu
      by_cases e : h' = h
      · subst e; simp only [upd_same] at hu ⊢; exact disp_ub hs hu
      · simp only [upd_ne _ _ e] at hu ⊢; exact hi.ub h' ts' hh hu
    · intro h' ts' prev' hh he hn
      by_cases e : h' = h
      · subst e; exact absurd he (body_not_entered hwf hi.m hst)
      · simp only [upd_ne _ _ e] at hn ⊢; exact hi.line h' ts' prev' hh he hn

theorem inv_exec {c : Cfg} {t0 : Nat} (hwf : Esp32.WellFormed c.hw) {s s' : St} {as : List Act} {tr : List (Nat × Executor.Ev)} (hi : Inv c t0 s) (h : Exec c s as tr s') : Inv c t0 s' := by
  induction h with
  | nil => exact hi
  | snoc h hs ih => exact inv_step hwf ih hs

/-- what one step is to the executors of dispatcher `d` -/
theorem proj_step {c : Cfg} {t0 : Nat} {s s' : St} {a : Act} {ev : List (Nat × Executor.Ev)} (hi : Inv c t0 s) (h : Step c s a ev s') {d : Nat} {ts : List Nat} (hd : c.tasks d = some ts) :
    ∃ acts, Executor.exec (c.exec d ts) (s.ex d) acts = some (s'.ex d, evsOf d ev) ∧ Executor.dispCount acts = accesses d [a] := by
  have one : ∀ {a : Executor.Act} {e' ev}, Executor.step (c.exec d ts) (s.ex d) a = some (e', ev) → Executor.exec (c.exec d ts) (s.ex d) [a] = some (e', ev) := by
    intro a e' ev h; simp [Executor.exec, h]
  have hcall : ∀ {d' ts' a e' ev}, c.tasks d' = some ts' → Executor.step (c.exec d' ts') (s.ex d') a = some (e', ev) → callAct a = true →
      ∃ acts, Executor.exec (c.exec d ts) (s.ex d) acts = some ((upd s.ex d' e') d, evsOf d (ev.map (d', ·))) ∧ Executor.dispCount acts = 0 := by
    intro d' ts' a e' ev hd' hs ha
    by_cases e : d' = d
    · subst e
      rw [hd] at hd'; cases hd'
      refine ⟨[a], by rw [upd_same, evsOf_map_same]; exact one hs, ?_⟩
      cases a <;> first | rfl | cases ha
    · exact ⟨[], by rw [upd_ne _ _ (Ne.symm e), evsOf_map_ne e]; rfl, rfl⟩
  cases h with
  | hw h ht => exact ⟨[], rfl, rfl⟩
  | unhw h ht => exact ⟨[], rfl, rfl⟩
  | irq h m' hp hbest hm => exact ⟨[], rfl, rfl⟩
  | unpend h prev rest ts' hq hst ht hidle =>
    by_cases e : h = d
    · subst e
      rw [hd] at ht; cases ht
      have hub : (s.ex h).ub = false := by
        cases hu : (s.ex h).ub
        · rfl
        · exact absurd hidle (hi.ub h ts hd hu)
      have hirq := hi.line h ts prev hd (by rw [hst]; exact List.mem_cons_self) hidle
      refine ⟨[.disp false], ?_, by simp [accesses, Executor.dispCount]⟩
      apply one
      simp [Executor.step, hub, Executor.stepDisp, hidle, hirq, Cfg.exec, evsOf]
    · exact ⟨[], by simp only [upd_ne _ _ (Ne.symm e)]; rfl, by simp [accesses, Executor.dispCount, e]⟩
  | code a m' hq hc hm hni hu hrun hf => exact ⟨[], rfl, rfl⟩
  | spawn d' ts' u a e' ev hq hc hu hd' hs => exact hcall hd' hs rfl
  | wake d' ts' u e' ev hq hc hu hd' hs => exact hcall hd' hs rfl
  | call d' ts' e' ev hq hu hd' hs => exact hcall hd' hs rfl
  | disp h prev i rest ts' r e' ev hq hc hst hd' hr hs =>
    by_cases e : h = d
    · subst e
      rw [hd] at hd'; cases hd'
      exact ⟨[.disp r], by rw [evsOf_map_same]; simp only [upd_same]; exact one hs, by simp [accesses, Executor.dispCount]⟩
    · exact ⟨[], by rw [evsOf_map_ne e]; simp only [upd_ne _ _ (Ne.symm e)]; rfl, by simp [accesses, Executor.dispCount, e]⟩

theorem dispCount_append (a b : List Executor.Act) : Executor.dispCount (a ++ b) = Executor.dispCount a + Executor.dispCount b := by
  induction a with
  | nil => simp [Executor.dispCount]
  | cons x a ih => cases x <;> simp only [List.cons_append, Executor.dispCount, ih] <;> omega

theorem proj_exec {c : Cfg} {t0 : Nat} (hwf : Esp32.WellFormed c.hw) {s s' : St} {as : List Act} {tr : List (Nat × Executor.Ev)} (hi : Inv c t0 s) (h : Exec c s as tr s') {d : Nat} {ts : List Nat} (hd : c.tasks d = some ts) :
    ∃ acts, Executor.exec (c.exec d ts) (s.ex d) acts = some (s'.ex d, evsOf d tr) ∧ Executor.dispCount acts = accesses d as := by
  induction h with
  | nil => exact ⟨[], rfl, rfl⟩
  | snoc h hs ih =>
    obtain ⟨acts, h1, h2⟩ := ih
    obtain ⟨acts', h3, h4⟩ := proj_step (inv_exec hwf hi h) hs hd
    exact ⟨acts ++ acts', by rw [evsOf_append]; exact Executor.exec_trans h1 h3, by rw [dispCount_append, accesses_append, h2, h4]⟩

/-- the executors of a dispatcher from the beginning -/
theorem proj_start {c : Cfg} {t0 : Nat} (hwf : Esp32.WellFormed c.hw) (h0 : c.hw.prio 0 = 0) {s0 s : St} {as : List Act} {tr : List (Nat × Executor.Ev)} (hs : Start c t0 s0) (h : Exec c s0 as tr s) {d : Nat} {ts : List Nat} (hd : c.tasks d = some ts) :
    ∃ acts tr0, Executor.exec (c.exec d ts) Executor.init acts = some (s.ex d, tr0 ++ evsOf d tr) := by
  obtain ⟨acts0, tr0, -, hx0⟩ := hs.calls d ts hd
  obtain ⟨acts, hx, -⟩ := proj_exec hwf (inv_start h0 hs) h hd
  exact ⟨_, _, Executor.exec_trans hx0 hx⟩

/-- The system is an execution of the interrupt machine: everything proved of it (C47, C51, C52, C87) holds. -/
theorem proj_hw {c : Cfg} {s s' : St} {as : List Act} {tr : List (Nat × Executor.Ev)} (h : Exec c s as tr s') : ∃ bs, Esp32.Exec c.hw s.m bs s'.m := by
  induction h with
  | nil => exact ⟨[], .nil _⟩
  | snoc h hs ih =>
    obtain ⟨bs, hb⟩ := ih
    cases hs with
    | irq h m' hp hbest hm => exact ⟨_, .snoc hb hm⟩
    | code a m' hq hc hm hni hu hrun hf => exact ⟨_, .snoc hb hm⟩
    | _ => exact ⟨bs, hb⟩

theorem Exec.trans {c : Cfg} {s1 s2 s3 : St} {as bs : List Act} {t1 t2 : List (Nat × Executor.Ev)} (h1 : Exec c s1 as t1 s2) (h2 : Exec c s2 bs t2 s3) : Exec c s1 (as ++ bs) (t1 ++ t2) s3 := by
  induction h2 with
  | nil => simpa using h1
  | snoc h hs ih => rw [← List.append_assoc, ← List.append_assoc]; exact .snoc ih hs

/-- something of priority `q` or more is pending or active -/
def Urgent (c : Cfg) (q : Nat) (s : St) : Prop := ∃ h, q ≤ c.hw.prio h ∧ (pended c s h = true ∨ Active h s.m.stack)

theorem ready_urgent {c : Cfg} {t0 : Nat} {s : St} (hi : Inv c t0 s) {d : Nat} {ts : List Nat} (hd : c.tasks d = some ts) (hp : 1 ≤ c.hw.prio d) (hr : Executor.Ready (c.exec d ts) (s.ex d)) : Urgent c (c.hw.prio d) s := by
  refine ⟨d, Nat.le_refl _, ?_⟩
  by_cases hn : (s.ex d).d = .idle
  · left
    obtain ⟨s1, e, hs⟩ := hr
    have hz : decide (c.hw.prio d = 0) = false := by simp; omega
    simp only [pended, hd]
    simp only [Executor.step, Executor.stepDisp, hn, Cfg.exec, hz, Bool.or_false] at hs
    split at hs
    · cases hs
    · split at hs
      · assumption
      · cases hs
  · exact .inr (hi.act d ts hd hp hn)

/-- if the hardware would admit priority `q`, and something as urgent is pending or active, then something as urgent is to be taken -/
theorem urgent_takeable {c : Cfg} {t0 : Nat} (hwf : Esp32.WellFormed c.hw) {s : St} (hi : Inv c t0 s) {q : Nat} (hq : 1 ≤ q) (hu : Urgent c q s) (ha : Esp32.admits s.m q) : ∃ h, takeable c s h ∧ q ≤ c.hw.prio h := by
  obtain ⟨h, hle, hpa⟩ := hu
  have ha2 := Esp32.admits_mono hle ha
  rcases hpa with hp | hact
  · exact ⟨h, ⟨by omega, hp, ha2⟩, hle⟩
  · exact absurd hact (not_active hwf hi.m (by omega) ha2)

/-- while something as urgent as `q` is pending or active, no critical section that blocks `q` is entered and nothing less urgent is started -/
theorem urgent_step {c : Cfg} {t0 : Nat} (hwf : Esp32.WellFormed c.hw) (ht0 : t0 ≤ 1) {q : Nat} (hq : 1 ≤ q) {s s' : St} {l2 : List Esp32.Rec} {a : Act} {ev : List (Nat × Executor.Ev)} (hi : Inv c t0 s) (hu : Urgent c q s) (hs : Step c s a ev s')
    (ho : Esp32.OldBlock c.hw q l2 s.m.stack) : Esp32.OldBlock c.hw q l2 s'.m.stack ∧ ∀ h, a = .irq h → q ≤ c.hw.prio h := by
  cases hs with
  | irq h m' hp' hbest hm =>
    refine ⟨Esp32.oldBlock_step ht0 hi.m hm (fun _ => ⟨h, rfl⟩) ho, fun h' e => ?_⟩
    cases e
    rcases Nat.lt_or_ge (c.hw.prio h) q with hlt | hge
    · obtain ⟨h', h1, h2⟩ := urgent_takeable hwf hi hq hu (Esp32.admits_mono (Nat.le_of_lt hlt) hp'.2.2)
      exact Nat.le_trans h2 (hbest h' h1)
    · exact hge
  | code a m' hqu hc hm hni hu' hrun hf =>
    refine ⟨Esp32.oldBlock_step ht0 hi.m hm (fun hadm => ?_) ho, by simp⟩
    obtain ⟨h', h1, -⟩ := urgent_takeable hwf hi hq hu hadm
    exact absurd h1 (hqu h')
  | _ => exact ⟨ho, by simp⟩

theorem own_quiet {c : Cfg} {s s' : St} {a : Act} {ev : List (Nat × Executor.Ev)} (hs : Step c s a ev s') (hown : a.own = true) : quiet c s := by
  cases hs <;> first | assumption | cases hown

/-- While something as urgent as `d` is pending or active, in every state from `s2` to `s3`. -/
theorem preempts_quiet {c : Cfg} {t0 : Nat} (hwf : Esp32.WellFormed c.hw) (ht0 : t0 ≤ 1) {d : Nat} (hp : 1 ≤ c.hw.prio d) {s2 s3 : St} {as : List Act} {tr : List (Nat × Executor.Ev)} (hi : Inv c t0 s2) (hx : Exec c s2 as tr s3)
    (hr : ∀ as' tr' s', Exec c s2 as' tr' s' → (∃ as'' tr'', as = as' ++ as'' ∧ tr = tr' ++ tr'') → Urgent c (c.hw.prio d) s') :
    (∀ cur, quiet c s3 → Esp32.top s3.m.stack = some cur → c.hw.prio d ≤ c.hw.prio cur ∨ ∃ x below, Esp32.BlockedAt c.hw (c.hw.prio d) x below ∧ (x :: below) <:+ s2.m.stack ∧ (x :: below) <:+ s3.m.stack) ∧
    (∀ h, .irq h ∈ as → c.hw.prio d ≤ c.hw.prio h) := by
  have key : Esp32.OldBlock c.hw (c.hw.prio d) s2.m.stack s3.m.stack ∧ (∀ h, .irq h ∈ as → c.hw.prio d ≤ c.hw.prio h) := by
    induction hx with
    | nil => exact ⟨Esp32.oldBlock_refl _ _ _, by simp⟩
    | @snoc s s' as tr a ev h hs ih =>
      have hi' := inv_exec hwf hi h
      have hr' := hr _ _ _ h ⟨_, _, rfl, rfl⟩
      obtain ⟨ih1, ih2⟩ := ih (fun as' tr' s' hx' ⟨as'', tr'', h1, h2⟩ => hr as' tr' s' hx' ⟨as'' ++ [a], tr'' ++ ev, by rw [h1, List.append_assoc], by rw [h2, List.append_assoc]⟩)
      obtain ⟨k1, k2⟩ := urgent_step hwf ht0 hp hi' hr' hs ih1
      refine ⟨k1, ?_⟩
      intro h hm
      rcases List.mem_append.1 hm with hm | hm
      · exact ih2 h hm
      · exact k2 h (List.mem_singleton.1 hm).symm
  refine ⟨?_, key.2⟩
  intro cur hqu htop
  have hi' := inv_exec hwf hi hx
  have hu := hr _ _ _ hx ⟨[], [], by simp, by simp⟩
  rcases Nat.lt_or_ge (c.hw.prio cur) (c.hw.prio d) with hlt | hge
  · by_cases hb : Esp32.Blocked c.hw (c.hw.prio d) s3.m.stack
    · exact .inr (key.1 hb)
    · obtain ⟨h, h1, -⟩ := urgent_takeable hwf hi' hp hu (Esp32.admitted_of_free ht0 hi'.m htop hlt hb)
      exact absurd h1 (hqu h)
  · exact .inl hge

theorem preempts_of_urgent {c : Cfg} {t0 : Nat} (hwf : Esp32.WellFormed c.hw) (ht0 : t0 ≤ 1) {d : Nat} (hp : 1 ≤ c.hw.prio d) {s2 s3 : St} {as : List Act} {tr : List (Nat × Executor.Ev)} (hi : Inv c t0 s2) (hx : Exec c s2 as tr s3)
    (hr : ∀ as' tr' s', Exec c s2 as' tr' s' → (∃ as'' tr'', as = as' ++ as'' ∧ tr = tr' ++ tr'') → Urgent c (c.hw.prio d) s') : Preempts c d s2 as s3 :=
  ⟨fun a ev s4 cur hs hown htop => (preempts_quiet hwf ht0 hp hi hx hr).1 cur (own_quiet hs hown) htop, (preempts_quiet hwf ht0 hp hi hx hr).2⟩

theorem prefix_evs {d : Nat} {e : Executor.Ev} {tr1 tr tr' tr'' : List (Nat × Executor.Ev)} (h : (d, e) ∉ tr1 ++ tr) (ht : tr = tr' ++ tr'') : e ∉ evsOf d tr1 ++ evsOf d tr' := by
  subst ht
  rw [← evsOf_append, mem_evsOf]
  intro hm
  exact h (by rw [← List.append_assoc]; exact List.mem_append_left _ hm)

/-- A task that is due stays so until it is polled or completes. -/
theorem due_serve {c : Cfg} {t0 : Nat} (hwf : Esp32.WellFormed c.hw) {d u : Nat} {ts : List Nat} (hd : c.tasks d = some ts) (hu : u ∈ ts) {s2 s3 : St} {as : List Act} {tr : List (Nat × Executor.Ev)} (hi : Inv c t0 s2)
    (hreach : ∃ acts e, Executor.exec (c.exec d ts) Executor.init acts = some (s2.ex d, e)) (hdue : Executor.Due (c.exec d ts) u (s2.ex d)) (hub : (s2.ex d).ub = false) (hx : Exec c s2 as tr s3)
    (hno : (d, .polled u) ∉ tr) (hcomp : (d, .completed u) ∉ tr) (hbad : ∀ t', (d, .badPoll t') ∉ tr) : Executor.Ready (c.exec d ts) (s3.ex d) ∧ accesses d as < Executor.twoRounds (c.exec d ts) := by
  obtain ⟨acts, hy, hc⟩ := proj_exec hwf hi hx hd
  obtain ⟨acts0, e0, hy0⟩ := hreach
  have hns : ¬ Executor.Served u (evsOf d tr) := by
    rintro (h | h | ⟨t', h⟩)
    · exact hno (mem_evsOf.1 h)
    · exact hcomp (mem_evsOf.1 h)
    · exact hbad t' (mem_evsOf.1 h)
  have hk := (Executor.due_kept (show u ∈ (c.exec d ts).ts from hu) hdue hy).resolve_left hns
  have hub' := (Executor.ub_exec hub hy).resolve_right (fun ⟨t', h⟩ => hbad t' (mem_evsOf.1 h))
  refine ⟨Executor.due_ready hk hub', ?_⟩
  rw [← hc]
  refine Nat.lt_of_not_le fun hle => hns (Executor.due_exec (show u ∈ (c.exec d ts).ts from hu) hdue hy ?_)
  have := Executor.reach_bound hy0 u
  omega

/-- **C92** (spawn) In a running application, handler `i` (any handler, at any depth of preemption, inside any locks) makes the access that decides that its `spawn` of task `u` succeeds (`s0` to `s1`); the call returns (`s2`); the task has not been polled up to `s3`. Then from `s2` to `s3` no code of lower priority than the task has
run, except inside critical sections that were entered before the call returned and block the task's priority; nothing of lower priority was started; and the dispatcher has made less than two rounds over its tasks. -/
theorem C92_spawned_preempts {c : Cfg} {t0 : Nat} (hwf : Esp32.WellFormed c.hw) (ht0 : t0 ≤ 1) (h0 : c.hw.prio 0 = 0) {st s0 s1 s2 s3 : St} {as0 as1 as2 : List Act} {tr0 tr1 tr2 : List (Nat × Executor.Ev)} {d u a : Nat} {ts : List Nat}
    (hst : Start c t0 st) (hx0 : Exec c st as0 tr0 s0) (hd : c.tasks d = some ts) (hu : u ∈ ts) (hp : 1 ≤ c.hw.prio d)
    (hok : Step c s0 (.call d) [(d, .ok u a)] s1) (hx1 : Exec c s1 as1 tr1 s2) (hret : (s2.ex d).pc (depth s0.m.stack) = .idle) (hx2 : Exec c s2 as2 tr2 s3)
    (hno : (d, .polled u) ∉ tr1 ++ tr2) (hbad : ∀ t', (d, .badPoll t') ∉ tr1 ++ tr2) : Preempts c d s2 as2 s3 ∧ accesses d as2 < Executor.twoRounds (c.exec d ts) := by
  have hi0 := inv_exec hwf (inv_start h0 hst) hx0
  have hi1 := inv_step hwf hi0 hok
  have hi2 := inv_exec hwf hi1 hx1
  obtain ⟨acts0, e0, hy0⟩ := proj_start hwf h0 hst hx0 hd
  obtain ⟨acts1, hy1, -⟩ := proj_exec hwf hi1 hx1 hd
  -- the access is one of the executor
  have hstep : Executor.step (c.exec d ts) (s0.ex d) (.thr (depth s0.m.stack)) = some (s1.ex d, [.ok u a]) := by
    generalize htr : [(d, Executor.Ev.ok u a)] = tr at hok
    cases hok with
    | call _ ts' e' ev hq hu' hd' hs =>
      rw [hd] at hd'; cases hd'
      have : ev = [.ok u a] := by
        have := congrArg (evsOf d) htr
        rw [evsOf_map_same] at this
        rw [← this]; simp [evsOf]
      simp only [upd_same]
      rw [hs, this]
  have serve : ∀ as' tr' s', Exec c s2 as' tr' s' → (∃ as'' tr'', as2 = as' ++ as'' ∧ tr2 = tr' ++ tr'') → Executor.Ready (c.exec d ts) (s'.ex d) ∧ accesses d as' < Executor.twoRounds (c.exec d ts) := by
    rintro as' tr' s' hx' ⟨as'', tr'', -, ht⟩
    obtain ⟨acts2, hy2, hc⟩ := proj_exec hwf hi2 hx' hd
    rcases Executor.C37_spawned_is_polled hy0 (show u ∈ (c.exec d ts).ts from hu) hstep rfl hy1 hret hy2 with h | ⟨t', h⟩ | h
    · exact absurd h (prefix_evs hno ht)
    · exact absurd h (prefix_evs (hbad t') ht)
    · rw [← hc]; exact h
  exact ⟨preempts_of_urgent hwf ht0 hp hi2 hx2 (fun as' tr' s' hx' hpre => ready_urgent (inv_exec hwf hi2 hx') hd hp (serve as' tr' s' hx' hpre).1),
    (serve as2 tr2 s3 hx2 ⟨[], [], by simp, by simp⟩).2⟩

/-- **C92** (wake) The same for a waker of the live task `u`, called by any handler (`s0` to `s1`), until the task is polled or, if it was just being polled when the waker was called, completes in that poll. -/
theorem C92_woken_preempts {c : Cfg} {t0 : Nat} (hwf : Esp32.WellFormed c.hw) (ht0 : t0 ≤ 1) (h0 : c.hw.prio 0 = 0) {st s0 s1 s2 s3 : St} {as0 as1 as2 : List Act} {tr0 ev1 tr1 tr2 : List (Nat × Executor.Ev)} {d u : Nat} {ts : List Nat}
    (hst : Start c t0 st) (hx0 : Exec c st as0 tr0 s0) (hd : c.tasks d = some ts) (hp : 1 ≤ c.hw.prio d) (hlive : (s0.ex d).running u = true)
    (hcall : Step c s0 (.wake d u) ev1 s1) (hx1 : Exec c s1 as1 tr1 s2) (hret : (s2.ex d).pc (depth s0.m.stack) = .idle) (hx2 : Exec c s2 as2 tr2 s3)
    (hno : (d, .polled u) ∉ tr1 ++ tr2) (hcomp : (d, .completed u) ∉ tr1 ++ tr2) (hbad : ∀ t', (d, .badPoll t') ∉ tr1 ++ tr2) : Preempts c d s2 as2 s3 ∧ accesses d as2 < Executor.twoRounds (c.exec d ts) := by
  have hi0 := inv_exec hwf (inv_start h0 hst) hx0
  have hi1 := inv_step hwf hi0 hcall
  have hi2 := inv_exec hwf hi1 hx1
  obtain ⟨acts0, e0, hy0⟩ := proj_start hwf h0 hst hx0 hd
  obtain ⟨acts1, hy1, -⟩ := proj_exec hwf hi1 hx1 hd
  have hstep : ∃ ev, Executor.step (c.exec d ts) (s0.ex d) (.callWake (depth s0.m.stack) u) = some (s1.ex d, ev) := by
    cases hcall with
    | wake _ ts' _ e' ev hq hc hu' hd' hs =>
      rw [hd] at hd'; cases hd'
      exact ⟨ev, by simp only [upd_same]; exact hs⟩
  obtain ⟨ev, hstep⟩ := hstep
  have serve : ∀ as' tr' s', Exec c s2 as' tr' s' → (∃ as'' tr'', as2 = as' ++ as'' ∧ tr2 = tr' ++ tr'') → Executor.Ready (c.exec d ts) (s'.ex d) ∧ accesses d as' < Executor.twoRounds (c.exec d ts) := by
    rintro as' tr' s' hx' ⟨as'', tr'', -, ht⟩
    obtain ⟨acts2, hy2, hc⟩ := proj_exec hwf hi2 hx' hd
    rcases Executor.C37_woken_is_polled hy0 hlive hstep hy1 hret hy2 with h | ⟨-, h⟩ | ⟨t', h⟩ | h
    · exact absurd h (prefix_evs hno ht)
    · exact absurd h (prefix_evs hcomp ht)
    · exact absurd h (prefix_evs (hbad t') ht)
    · rw [← hc]; exact h
  exact ⟨preempts_of_urgent hwf ht0 hp hi2 hx2 (fun as' tr' s' hx' hpre => ready_urgent (inv_exec hwf hi2 hx') hd hp (serve as' tr' s' hx' hpre).1),
    (serve as2 tr2 s3 hx2 ⟨[], [], by simp, by simp⟩).2⟩

/-- number of times handler `d` is entered -/
def entries (d : Nat) : List Act → Nat
  | [] => 0
  | .irq h :: as => entries d as + (if h = d then 1 else 0)
  | _ :: as => entries d as

theorem entries_append (d : Nat) (a b : List Act) : entries d (a ++ b) = entries d a + entries d b := by
  induction a with
  | nil => simp [entries]
  | cons x a ih => cases x <;> simp only [List.cons_append, entries, ih] <;> omega

/-- the dispatcher has been entered and has not cleared its line yet -/
def Fresh (d : Nat) (s : St) : Prop := ∃ prev, .enter d prev ∈ s.m.stack ∧ (s.ex d).d = .idle

/-- this lasts until it clears its line -/
theorem fresh_code {c : Cfg} {m m' : Esp32.St} {a : Esp32.Act} (hm : Esp32.Step c.hw m a m') {h prev : Nat} (he : .enter h prev ∈ m.stack) (hr : a = .readInitial → Esp32.top m.stack ≠ some h) : .enter h prev ∈ m'.stack := by
  cases hm with
  | irq t hp ho hadm => exact List.mem_cons_of_mem _ he
  | lockCs t r ht hc hu hr => exact List.mem_cons_of_mem _ he
  | lock t r ht hc hu hr => exact List.mem_cons_of_mem _ he
  | userCs hc => exact List.mem_cons_of_mem _ he
  | readInitial t prev' rest hst =>
    have := hr rfl
    rw [hst] at he this
    rcases List.mem_cons.1 he with he | he
    · cases he; exact absurd rfl this
    · exact List.mem_cons_of_mem _ he
  | raise r cur rest hst => rw [hst] at he; simpa using he
  | raiseCs r mm rest hst => rw [hst] at he; simpa using he
  | unlock r cur rest hst => rw [hst] at he; simpa using he
  | unlockCs r mm rest hst => rw [hst] at he; simpa using he
  | finish1 t prev' rest hst hp => rw [hst] at he; simpa using he
  | finish t prev' i rest hst => rw [hst] at he; simpa using he
  | ret t prev' rest hst => rw [hst] at he; simpa using he

/-- **C92** (no empty activations) A dispatcher that has been entered looks at its tasks: in any part of an execution it is entered at most once more than it accesses its line or its tasks. -/
theorem C92_entered_once_per_round {c : Cfg} {t0 : Nat} (hwf : Esp32.WellFormed c.hw) (h0 : c.hw.prio 0 = 0) {st s2 s3 : St} {as0 as : List Act} {tr0 tr : List (Nat × Executor.Ev)} (hst : Start c t0 st) (hx0 : Exec c st as0 tr0 s2) (hx : Exec c s2 as tr s3)
    {d : Nat} {ts : List Nat} (hd : c.tasks d = some ts) (hp : 1 ≤ c.hw.prio d) : entries d as ≤ accesses d as + 1 := by
  have hi2 := inv_exec hwf (inv_start h0 hst) hx0
  have key : entries d as ≤ accesses d as + 1 ∧ (¬ Fresh d s3 → entries d as ≤ accesses d as) := by
    induction hx with
    | nil => simp [entries]
    | @snoc s s' as tr a ev h hs ih =>
      obtain ⟨ih1, ih2⟩ := ih
      have hi := inv_exec hwf hi2 h
      rw [entries_append, accesses_append]
      have keep : (Fresh d s → Fresh d s') → entries d [a] = 0 → entries d as + entries d [a] ≤ accesses d as + accesses d [a] + 1 ∧ (¬ Fresh d s' → entries d as + entries d [a] ≤ accesses d as + accesses d [a]) := by
        intro hf he
        rw [he]
        refine ⟨by omega, fun hn => ?_⟩
        have := ih2 (fun hh => hn (hf hh))
        omega
      have more : entries d [a] = 0 → accesses d [a] = 1 → entries d as + entries d [a] ≤ accesses d as + accesses d [a] + 1 ∧ (¬ Fresh d s' → entries d as + entries d [a] ≤ accesses d as + accesses d [a]) := by
        intro he ha
        rw [he, ha]
        exact ⟨by omega, fun _ => by omega⟩
      have hcall : ∀ {d' ts' b e' ev}, c.tasks d' = some ts' → Executor.step (c.exec d' ts') (s.ex d') b = some (e', ev) → callAct b = true → Fresh d s → Fresh d { s with ex := upd s.ex d' e' } := by
        rintro d' ts' b e' ev hd' hs' hb ⟨prev, h1, h2⟩
        refine ⟨prev, h1, ?_⟩
        by_cases e : d = d'
        · subst e; simp only [upd_same, (call_d hs' hb).1]; exact h2
        · simp only [upd_ne _ _ e]; exact h2
      cases hs with
      | hw h ht => exact keep id rfl
      | unhw h ht => exact keep id rfl
      | irq h m' hp' hbest hm =>
        by_cases e : h = d
        · subst e
          have hnf : ¬ Fresh h s := by
            rintro ⟨prev, h1, -⟩
            exact not_active hwf hi.m hp hp'.2.2 ⟨_, h1, rfl⟩
          have := ih2 hnf
          refine ⟨by simp [entries, accesses]; omega, fun hn => absurd ⟨s.m.thr, ?_, ?_⟩ hn⟩
          · simp only [irq_stack hm]; exact List.mem_cons_self
          · cases hdd : (s.ex h).d with
            | idle => rfl
            | _ => exact absurd (hi.act h ts hd hp (by rw [hdd]; simp)) (not_active hwf hi.m hp hp'.2.2)
        · refine keep ?_ (by simp [entries, e])
          rintro ⟨prev, h1, h2⟩
          exact ⟨prev, by simp only [irq_stack hm]; exact List.mem_cons_of_mem _ h1, h2⟩
      | unpend h prev rest ts' hq hst' ht hidle =>
        by_cases e : h = d
        · exact more rfl (by simp [accesses, e])
        · refine keep ?_ rfl
          rintro ⟨prev, h1, h2⟩
          exact ⟨prev, h1, by simp only [upd_ne _ _ (Ne.symm e)]; exact h2⟩
      | code b m' hq hc hm hni hu hrun hf =>
        refine keep ?_ rfl
        rintro ⟨prev, h1, h2⟩
        exact ⟨prev, fresh_code hm h1 (fun hb htop => hrun hb d ts htop hd h2), h2⟩
      | spawn d' ts' u b e' ev hq hc hu hd' hs => exact keep (hcall hd' hs rfl) rfl
      | wake d' ts' u e' ev hq hc hu hd' hs => exact keep (hcall hd' hs rfl) rfl
      | call d' ts' e' ev hq hu hd' hs => exact keep (hcall hd' hs rfl) rfl
      | disp h prev i rest ts' r e' ev hq hc hst' hd' hr hs =>
        by_cases e : h = d
        · exact more rfl (by simp [accesses, e])
        · refine keep ?_ rfl
          rintro ⟨prev, h1, h2⟩
          exact ⟨prev, h1, by simp only [upd_ne _ _ (Ne.symm e)]; exact h2⟩
  exact key.1

/-- a request of a peripheral stays until it is withdrawn -/
theorem pend_step {c : Cfg} {d : Nat} {s s' : St} {a : Act} {ev : List (Nat × Executor.Ev)} (hs : Step c s a ev s') (hn : a ≠ .unhw d) (hp : s.pend d = true) : s'.pend d = true := by
  cases hs with
  | hw h ht =>
    by_cases e : h = d
    · subst e; simp
    · simp only [upd_ne _ _ (Ne.symm e)]; exact hp
  | unhw h ht =>
    by_cases e : h = d
    · subst e; exact absurd rfl hn
    · simp only [upd_ne _ _ (Ne.symm e)]; exact hp
  | _ => exact hp

theorem pend_keeps {c : Cfg} {d : Nat} {s s' : St} {as : List Act} {tr : List (Nat × Executor.Ev)} (h : Exec c s as tr s') (hn : Act.unhw d ∉ as) (hp : s.pend d = true) : s'.pend d = true := by
  induction h with
  | nil => exact hp
  | snoc h hs ih => exact pend_step hs (fun e => hn (by rw [e]; simp)) (ih (fun hm => hn (List.mem_append_left _ hm)))

/-- **C92** (hardware) While a peripheral requests the hardware task of handler `d`: no code of lower priority runs, except inside critical sections that were entered before the request and block the task's priority, and nothing of lower priority is started. -/
theorem C92_hardware_preempts {c : Cfg} {t0 : Nat} (hwf : Esp32.WellFormed c.hw) (ht0 : t0 ≤ 1) (h0 : c.hw.prio 0 = 0) {st s2 s3 : St} {as0 as2 : List Act} {tr0 tr2 : List (Nat × Executor.Ev)} {d : Nat}
    (hst : Start c t0 st) (hx0 : Exec c st as0 tr0 s2) (hd : c.tasks d = none) (hp : 1 ≤ c.hw.prio d) (hpend : s2.pend d = true) (hx2 : Exec c s2 as2 tr2 s3) (hn : .unhw d ∉ as2) : Preempts c d s2 as2 s3 := by
  have hi2 := inv_exec hwf (inv_start h0 hst) hx0
  refine preempts_of_urgent hwf ht0 hp hi2 hx2 (fun as' tr' s' hx' ⟨as'', tr'', e, _⟩ => ⟨d, Nat.le_refl _, .inl ?_⟩)
  simp only [pended, hd]
  exact pend_keeps hx' (fun hm => hn (by rw [e]; exact List.mem_append_left _ hm)) hpend

/-- **C92** (consequence) If nothing of lower priority is inside a critical section blocking the task when the call returns (the request is made), no code of lower priority makes a step before the task runs; in particular the caller, if it has a lower priority, does not. -/
theorem C92_runs_first {c : Cfg} {d : Nat} {s2 s3 : St} {as : List Act} (h : Preempts c d s2 as s3) (hb : ¬ Esp32.Blocked c.hw (c.hw.prio d) s2.m.stack) {a : Act} {ev : List (Nat × Executor.Ev)} {s4 : St} {cur : Nat}
    (hs : Step c s3 a ev s4) (hown : a.own = true) (ht : Esp32.top s3.m.stack = some cur) : c.hw.prio d ≤ c.hw.prio cur := by
  rcases h.next a ev s4 cur hs hown ht with h | ⟨x, b, h1, h2, -⟩
  · exact h
  · exact absurd ⟨x, b, h2, h1⟩ hb

theorem best_exists {c : Cfg} (hwf : Esp32.WellFormed c.hw) {s : St} {h : Nat} (ht : takeable c s h) : ∃ h', takeable c s h' ∧ c.hw.prio h ≤ c.hw.prio h' ∧ ∀ k, takeable c s k → c.hw.prio k ≤ c.hw.prio h' := by
  have : ∀ n h, 15 - c.hw.prio h ≤ n → takeable c s h → ∃ h', takeable c s h' ∧ c.hw.prio h ≤ c.hw.prio h' ∧ ∀ k, takeable c s k → c.hw.prio k ≤ c.hw.prio h' := by
    intro n
    induction n with
    | zero =>
      intro h hn ht
      refine ⟨h, ht, Nat.le_refl _, fun k _ => ?_⟩
      have := hwf.prio k
      omega
    | succ n ih =>
      intro h hn ht
      by_cases hk : ∃ k, takeable c s k ∧ c.hw.prio h < c.hw.prio k
      · obtain ⟨k, hk, hlt⟩ := hk
        obtain ⟨h', h1, h2, h3⟩ := ih k (by omega) hk
        exact ⟨h', h1, by omega, h3⟩
      · exact ⟨h, ht, Nat.le_refl _, fun k hk' => Nat.le_of_not_lt fun hlt => hk ⟨k, hk', hlt⟩⟩
  exact this _ h (Nat.le_refl _) ht

/-- **C92** (at once) While a task of dispatcher `d` is due (its dispatcher can proceed), and code of lower priority is at the processor, in no critical section that blocks `d`: the next step is that `d` or something at least as urgent takes over, and this step is possible. -/
theorem C92_taken_at_once {c : Cfg} {t0 : Nat} (hwf : Esp32.WellFormed c.hw) (ht0 : t0 ≤ 1) (h0 : c.hw.prio 0 = 0) {st s : St} {as : List Act} {tr : List (Nat × Executor.Ev)} (hst : Start c t0 st) (hx : Exec c st as tr s) {d : Nat} {ts : List Nat} (hd : c.tasks d = some ts) (hp : 1 ≤ c.hw.prio d)
    (hr : Executor.Ready (c.exec d ts) (s.ex d)) {cur : Nat} (ht : Esp32.top s.m.stack = some cur) (hlt : c.hw.prio cur < c.hw.prio d) (hb : ¬ Esp32.Blocked c.hw (c.hw.prio d) s.m.stack) :
    (∃ h s', c.hw.prio d ≤ c.hw.prio h ∧ Step c s (.irq h) [] s') ∧ ∀ a ev s', Step c s a ev s' → a.own = true → False := by
  have hi := inv_exec hwf (inv_start h0 hst) hx
  obtain ⟨h, htk, hle⟩ := urgent_takeable hwf hi hp (ready_urgent hi hd hp hr) (Esp32.admitted_of_free ht0 hi.m ht hlt hb)
  refine ⟨?_, fun a ev s' hs hown => own_quiet hs hown h htk⟩
  obtain ⟨h', h1, h2, h3⟩ := best_exists hwf htk
  exact ⟨h', _, by omega, .irq h' _ h1 h3 (.irq h' h1.1 h1.2.2.1 h1.2.2.2)⟩

end Verif.EspSystem
