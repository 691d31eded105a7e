import Verif.System.Model

/-!
# C82: a spawned or woken task runs before anything of lower priority
-/

namespace Verif.System

open Verif

/-! ## Specification -/

/-- events of the executors of dispatcher `d` -/
def evsOf (d : Nat) (tr : List (Nat × Executor.Ev)) : List Executor.Ev := tr.filterMap fun e => if e.1 = d then some e.2 else none

/-- number of accesses of dispatcher `d` -/
def accesses (d : Nat) : List Act → Nat
  | [] => 0
  | .disp h _ :: as | .irq h :: as => accesses d as + (if h = d then 1 else 0)
  | _ :: as => accesses d as

/-- From `s2` to `s3`, and in the next step, no code of a lower priority than dispatcher `d` runs, except inside a critical section that was entered before `s2`, and none is started; `d` made fewer accesses than two rounds over its tasks. -/
structure Preempts (c : Cfg) (d : Nat) (ts : List Nat) (s2 : St) (as : List Act) (s3 : St) : Prop where
  /-- who runs has at least the priority of `d`, or is held up in a critical section entered before `s2` that blocks `d` -/
  next : ∀ a ev s4 cur, Step c s3 a ev s4 → a.own = true → Srp.top s3.m.stack = some cur → c.srp.prio d ≤ c.srp.prio cur ∨
    ∃ x below, Srp.BlockedAt c.srp (c.srp.prio d) x below ∧ (x :: below) <:+ s2.m.stack ∧ (x :: below) <:+ s3.m.stack
  /-- no handler of lower priority was started -/
  starts : ∀ h, .irq h ∈ as → c.srp.prio d ≤ c.srp.prio h
  bound : accesses d as < Executor.twoRounds (c.exec d ts)

/-! ## Proofs -/

@[simp] theorem upd_same {α} (f : Nat → α) (i : Nat) (a : α) : upd f i a i = a := by simp [upd]
theorem upd_ne {α} (f : Nat → α) {i j : Nat} (a : α) (h : j ≠ i) : upd f i a j = f j := by simp [upd, h]

theorem evsOf_append (d : Nat) (a b : List (Nat × Executor.Ev)) : evsOf d (a ++ b) = evsOf d a ++ evsOf d b := by simp [evsOf]

theorem evsOf_map_same (d : Nat) (ev : List Executor.Ev) : evsOf d (ev.map (d, ·)) = ev := by
  induction ev with
  | nil => rfl
  | cons e ev ih => simp [evsOf] at ih ⊢; exact ih

theorem evsOf_map_ne {d h : Nat} (hne : h ≠ d) (ev : List Executor.Ev) : evsOf d (ev.map (h, ·)) = [] := by
  induction ev with
  | nil => rfl
  | cons e ev ih => simp [evsOf, hne] at ih ⊢

theorem mem_evsOf {d : Nat} {e : Executor.Ev} {tr : List (Nat × Executor.Ev)} : e ∈ evsOf d tr ↔ (d, e) ∈ tr := by
  simp only [evsOf, List.mem_filterMap]
  constructor
  · rintro ⟨⟨a, b⟩, h1, h2⟩
    simp only at h2
    split at h2
    · cases h2; subst_vars; exact h1
    · cases h2
  · intro h; exact ⟨(d, e), h, by simp⟩

theorem accesses_append (d : Nat) (a b : List Act) : accesses d (a ++ b) = accesses d a + accesses d b := by
  induction a with
  | nil => simp [accesses]
  | cons x a ih => cases x <;> simp only [List.cons_append, accesses, ih] <;> omega

/-- the dispatcher is on the stack and has not returned -/
def Active (h : Nat) (l : List Srp.Rec) : Prop := ∃ x ∈ l, x = .enter h ∨ ∃ i, x = .body h i

structure Inv (c : Cfg) (s : St) : Prop where
  m : Srp.Inv c.srp s.m
  act : ∀ h ts, c.tasks h = some ts → 1 ≤ c.srp.prio h → (s.ex h).d ≠ .idle → Active h s.m.stack
  ub : ∀ h ts, c.tasks h = some ts → (s.ex h).ub = true → (s.ex h).d ≠ .idle

/-- an access of a caller does not touch the dispatcher's program counter -/
theorem call_d {c : Executor.Cfg} {s s1 : Executor.St} {a : Executor.Act} {e : List Executor.Ev} (h : Executor.step c s a = some (s1, e)) (ha : callAct a = true) : s1.d = s.d ∧ s1.ub = s.ub := by
  cases a with
  | disp r => cases ha
  | thr i =>
    simp only [Executor.step, Executor.stepThr] at h
    (repeat' split at h) <;> (try cases h) <;> exact ⟨rfl, rfl⟩
  | _ =>
    simp only [Executor.step] at h
    (repeat' split at h) <;> (try cases h) <;> exact ⟨rfl, rfl⟩

theorem calls_d {c : Executor.Cfg} : ∀ (as : List Executor.Act) {s s1 : Executor.St} {e : List Executor.Ev}, Executor.exec c s as = some (s1, e) → (∀ a ∈ as, callAct a = true) → s1.d = s.d ∧ s1.ub = s.ub
  | [], s, s1, e, h, _ => by cases h; exact ⟨rfl, rfl⟩
  | a :: as, s, s1, e, h, ha => by
    obtain ⟨s2, e1, e2, h1, h2, -⟩ := Executor.exec_cons h
    have k1 := call_d h1 (ha a List.mem_cons_self)
    have k2 := calls_d as h2 (fun b hb => ha b (List.mem_cons_of_mem _ hb))
    exact ⟨k2.1.trans k1.1, k2.2.trans k1.2⟩

theorem ub_of_step {c : Executor.Cfg} {s s1 : Executor.St} {a : Executor.Act} {e : List Executor.Ev} (h : Executor.step c s a = some (s1, e)) : s.ub = false := by
  simp only [Executor.step] at h
  split at h
  · cases h
  · simpa using ‹¬ s.ub = true›

theorem disp_ub {c : Executor.Cfg} {s s1 : Executor.St} {r : Bool} {e : List Executor.Ev} (h : Executor.step c s (.disp r) = some (s1, e)) : s1.ub = true → s1.d ≠ .idle := by
  have h0 := ub_of_step h
  simp only [Executor.step, h0, Bool.false_eq_true, if_false, Executor.stepDisp] at h
  (repeat' split at h) <;> (try cases h) <;> simp_all

theorem inv_start {c : Cfg} (hwf : Srp.WellFormed c.srp) (h0 : c.srp.prio 0 = 0) {s : St} (h : Start c s) : Inv c s := by
  refine ⟨by rw [h.m]; exact Srp.inv_start hwf h0, ?_, ?_⟩
  · intro d ts hd _ hn
    obtain ⟨acts, tr, ha, hx⟩ := h.calls d ts hd
    exact absurd (calls_d acts hx ha).1 hn
  · intro d ts hd hu
    obtain ⟨acts, tr, ha, hx⟩ := h.calls d ts hd
    rw [(calls_d acts hx ha).2] at hu
    cases hu

/-- a handler that the hardware admits is not on the stack -/
theorem not_active {c : Cfg} (hwf : Srp.WellFormed c.srp) {s : St} (hi : Srp.Inv c.srp s.m) {h cur : Nat} (hp : 1 ≤ c.srp.prio h) (ht : Srp.top s.m.stack = some cur)
    (ha : Srp.admits c.srp.bits s.m.bp s.m.pm (c.srp.prio cur) (c.srp.prio h)) : ¬ Active h s.m.stack := by
  rintro ⟨x, hx, hxa⟩
  rw [hi.bp, Srp.admits_iff hwf.bits (Srp.level_lt hi.ok) hp (hwf.prio h) (hwf.prio cur)] at ha
  have : Srp.ActivationOf h x := by
    rcases hxa with rfl | ⟨i, rfl⟩ <;> exact rfl
  have := Srp.top_max hi.ok ht hx this
  omega

theorem active_push {h : Nat} {l : List Srp.Rec} (x : Srp.Rec) (ha : Active h l) : Active h (x :: l) := by
  obtain ⟨y, hy, hx⟩ := ha; exact ⟨y, List.mem_cons_of_mem _ hy, hx⟩

theorem active_pop {h : Nat} {l : List Srp.Rec} {x : Srp.Rec} (ha : Active h (x :: l)) (hx : ¬ (x = .enter h ∨ ∃ i, x = .body h i)) : Active h l := by
  obtain ⟨y, hy, hy'⟩ := ha
  rcases List.mem_cons.1 hy with rfl | hy
  · exact absurd hy' hx
  · exact ⟨y, hy, hy'⟩

/-- a step of `run`, `lock`, `critical_section::with` keeps every active dispatcher on the stack, except the one that finishes -/
theorem active_code {c : Srp.Cfg} {m m' : Srp.St} {a : Srp.Act} (hm : Srp.Step c m a m') {h : Nat} (ha : Active h m.stack) (hf : a = .finish → Srp.top m.stack ≠ some h) : Active h m'.stack := by
  cases hm with
  | irq t cur ht hp hadm => exact active_push _ ha
  | readInitial t rest hst =>
    rw [hst] at ha
    obtain ⟨y, hy, hy'⟩ := ha
    rcases List.mem_cons.1 hy with rfl | hy
    · rcases hy' with e | ⟨i, e⟩
      · cases e; exact ⟨_, List.mem_cons_self, .inr ⟨_, rfl⟩⟩
      · cases e
    · exact ⟨y, List.mem_cons_of_mem _ hy, hy'⟩
  | lockCs t r ht hc hu hr => exact active_push _ ha
  | lock t r ht hc hu hr => exact active_push _ ha
  | userCs hc => exact active_push _ ha
  | raise r cur rest hst => rw [hst] at ha; exact active_push _ (active_pop ha (by simp))
  | raiseCs r mm rest hst => rw [hst] at ha; exact active_push _ (active_pop ha (by simp))
  | unlock r cur rest hst => rw [hst] at ha; exact active_pop ha (by simp)
  | unlockCs r mm rest hst => rw [hst] at ha; exact active_pop ha (by simp)
  | finish1 t rest hst hp =>
    have := hf rfl
    rw [hst] at ha this
    exact active_push _ (active_pop ha (by rintro (e | ⟨i, e⟩) <;> cases e; exact this rfl))
  | finish t i rest hst =>
    have := hf rfl
    rw [hst] at ha this
    exact active_push _ (active_pop ha (by rintro (e | ⟨i, e⟩) <;> cases e; exact this rfl))
  | ret t rest hst => rw [hst] at ha; exact active_pop ha (by simp)

theorem irq_stack {c : Srp.Cfg} {m m' : Srp.St} {h : Nat} (hm : Srp.Step c m (.irq h) m') : m'.stack = .enter h :: m.stack := by
  cases hm; rfl

theorem inv_step {c : Cfg} (hwf : Srp.WellFormed c.srp) {s s' : St} {a : Act} {ev : List (Nat × Executor.Ev)} (hi : Inv c s) (h : Step c s a ev s') : Inv c s' := by
  have hcall : ∀ {d ts a e' ev}, c.tasks d = some ts → Executor.step (c.exec d ts) (s.ex d) a = some (e', ev) → callAct a = true → Inv c { s with ex := upd s.ex d e' } := by
    intro d ts a e' ev hd hs ha
    obtain ⟨k1, k2⟩ := call_d hs ha
    refine ⟨hi.m, ?_, ?_⟩
    · intro h ts' hh hp hn
      by_cases e : h = d
      · subst e; simp only [upd_same, k1] at hn; exact hi.act h ts' hh hp hn
      · simp only [upd_ne _ _ e] at hn; exact hi.act h ts' hh hp hn
    · intro h ts' hh hu
      by_cases e : h = d
      · subst e; simp only [upd_same, k1, k2] at hu ⊢; exact hi.ub h ts' hh hu
      · simp only [upd_ne _ _ e] at hu ⊢; exact hi.ub h ts' hh hu
  cases h with
  | hw h ht => exact ⟨hi.m, hi.act, hi.ub⟩
  | unhw h ht => exact ⟨hi.m, hi.act, hi.ub⟩
  | irqHw h m' ht hp hbest hm =>
    refine ⟨Srp.inv_step hwf hi.m hm, ?_, hi.ub⟩
    intro h' ts hh hp' hn
    exact active_code hm (hi.act h' ts hh hp' hn) (by simp)
  | irqDisp h ts m' ht hp hbest hm =>
    refine ⟨Srp.inv_step hwf hi.m hm, ?_, ?_⟩
    · intro h' ts' hh hp' hn
      by_cases e : h' = h
      · subst e
        show Active h' m'.stack
        rw [irq_stack hm]; exact ⟨_, List.mem_cons_self, .inl rfl⟩
      · simp only [upd_ne _ _ e] at hn
        exact active_code hm (hi.act h' ts' hh hp' hn) (by simp)
    · intro h' ts' hh hu
      by_cases e : h' = h
      · subst e; simp
      · simp only [upd_ne _ _ e] at hu ⊢; exact hi.ub h' ts' hh hu
  | code a m' hq hc hm hni hu hf =>
    refine ⟨Srp.inv_step hwf hi.m hm, ?_, hi.ub⟩
    intro h' ts hh hp' hn
    exact active_code hm (hi.act h' ts hh hp' hn) (fun he htop => hn (hf he h' ts htop hh))
  | spawn d ts u a e' ev hq hc hu hd hs => exact hcall hd hs rfl
  | wake d ts u e' ev hq hc hu hd hs => exact hcall hd hs rfl
  | call d ts e' ev hq hu hd hs => exact hcall hd hs rfl
  | disp h i rest ts r e' ev hq hc hst hd hr hs =>
    refine ⟨hi.m, ?_, ?_⟩
    · intro h' ts' hh hp' hn
      by_cases e : h' = h
      · subst e; exact ⟨.body h' i, by rw [hst]; exact List.mem_cons_self, .inr ⟨i, rfl⟩⟩
      · simp only [upd_ne _ _ e] at hn; exact hi.act h' ts' hh hp' hn
    · intro h' ts' hh hu
      by_cases e : h' = h
      · subst e; simp only [upd_same] at hu ⊢; exact disp_ub hs hu
      · simp only [upd_ne _ _ e] at hu ⊢; exact hi.ub h' ts' hh hu

theorem inv_exec {c : Cfg} (hwf : Srp.WellFormed c.srp) {s s' : St} {as : List Act} {tr : List (Nat × Executor.Ev)} (hi : Inv c s) (h : Exec c s as tr s') : Inv c s' := by
  induction h with
  | nil => exact hi
  | snoc h hs ih => exact inv_step hwf ih hs

/-- what one step is to the executors of dispatcher `d` -/
theorem proj_step {c : Cfg} (hwf : Srp.WellFormed c.srp) {s s' : St} {a : Act} {ev : List (Nat × Executor.Ev)} (hi : Inv c s) (h : Step c s a ev s') {d : Nat} {ts : List Nat} (hd : c.tasks d = some ts) :
    ∃ acts, Executor.exec (c.exec d ts) (s.ex d) acts = some (s'.ex d, evsOf d ev) ∧ Executor.dispCount acts = accesses d [a] := by
  have one : ∀ {a : Executor.Act} {e' ev}, Executor.step (c.exec d ts) (s.ex d) a = some (e', ev) → Executor.exec (c.exec d ts) (s.ex d) [a] = some (e', ev) := by
    intro a e' ev h; simp [Executor.exec, h]
  have hcall : ∀ {d' ts' a e' ev}, c.tasks d' = some ts' → Executor.step (c.exec d' ts') (s.ex d') a = some (e', ev) → callAct a = true →
      ∃ acts, Executor.exec (c.exec d ts) (s.ex d) acts = some ((upd s.ex d' e') d, evsOf d (ev.map (d', ·))) ∧ Executor.dispCount acts = 0 := by
    intro d' ts' a e' ev hd' hs ha
    by_cases e : d' = d
    · subst e
      rw [hd] at hd'; cases hd'
      refine ⟨[a], by rw [upd_same, evsOf_map_same]; exact one hs, ?_⟩
      cases a <;> first | rfl | cases ha
    · exact ⟨[], by rw [upd_ne _ _ (Ne.symm e), evsOf_map_ne e]; rfl, rfl⟩
  cases h with
  | hw h ht => exact ⟨[], rfl, rfl⟩
  | unhw h ht => exact ⟨[], rfl, rfl⟩
  | irqHw h m' ht hp hbest hm =>
    refine ⟨[], rfl, ?_⟩
    have : h ≠ d := by rintro rfl; rw [hd] at ht; cases ht
    simp [accesses, Executor.dispCount, this]
  | irqDisp h ts' m' ht hp hbest hm =>
    by_cases e : h = d
    · subst e
      rw [hd] at ht; cases ht
      obtain ⟨hp1, hpend, cur, htop, hadm⟩ := hp
      have hidle : (s.ex h).d = .idle := by
        by_cases hn : (s.ex h).d = .idle
        · exact hn
        · exact absurd (hi.act h ts hd hp1 hn) (not_active hwf hi.m hp1 htop hadm)
      have hub : (s.ex h).ub = false := by
        cases hu : (s.ex h).ub
        · rfl
        · exact absurd hidle (hi.ub h ts hd hu)
      have hirq : (s.ex h).irq = true := by simpa [pended, hd] using hpend
      refine ⟨[.disp false], ?_, by simp [accesses, Executor.dispCount]⟩
      apply one
      simp [Executor.step, hub, Executor.stepDisp, hidle, hirq, Cfg.exec, evsOf]
    · exact ⟨[], by simp only [upd_ne _ _ (Ne.symm e)]; rfl, by simp [accesses, Executor.dispCount, e]⟩
  | code a m' hq hc hm hni hu hf => exact ⟨[], rfl, rfl⟩
  | spawn d' ts' u a e' ev hq hc hu hd' hs => exact hcall hd' hs rfl
  | wake d' ts' u e' ev hq hc hu hd' hs => exact hcall hd' hs rfl
  | call d' ts' e' ev hq hu hd' hs => exact hcall hd' hs rfl
  | disp h i rest ts' r e' ev hq hc hst hd' hr hs =>
    by_cases e : h = d
    · subst e
      rw [hd] at hd'; cases hd'
      exact ⟨[.disp r], by rw [evsOf_map_same]; simp only [upd_same]; exact one hs, by simp [accesses, Executor.dispCount]⟩
    · exact ⟨[], by rw [evsOf_map_ne e]; simp only [upd_ne _ _ (Ne.symm e)]; rfl, by simp [accesses, Executor.dispCount, e]⟩

theorem dispCount_append (a b : List Executor.Act) : Executor.dispCount (a ++ b) = Executor.dispCount a + Executor.dispCount b := by
  induction a with
  | nil => simp [Executor.dispCount]
  | cons x a ih => cases x <;> simp only [List.cons_append, Executor.dispCount, ih] <;> omega

theorem proj_exec {c : Cfg} (hwf : Srp.WellFormed c.srp) {s s' : St} {as : List Act} {tr : List (Nat × Executor.Ev)} (hi : Inv c s) (h : Exec c s as tr s') {d : Nat} {ts : List Nat} (hd : c.tasks d = some ts) :
    ∃ acts, Executor.exec (c.exec d ts) (s.ex d) acts = some (s'.ex d, evsOf d tr) ∧ Executor.dispCount acts = accesses d as := by
  induction h with
  | nil => exact ⟨[], rfl, rfl⟩
  | snoc h hs ih =>
    obtain ⟨acts, h1, h2⟩ := ih
    obtain ⟨acts', h3, h4⟩ := proj_step hwf (inv_exec hwf hi h) hs hd
    exact ⟨acts ++ acts', by rw [evsOf_append]; exact Executor.exec_trans h1 h3, by rw [dispCount_append, accesses_append, h2, h4]⟩

/-- the executors of a dispatcher from the beginning -/
theorem proj_start {c : Cfg} (hwf : Srp.WellFormed c.srp) (h0 : c.srp.prio 0 = 0) {s0 s : St} {as : List Act} {tr : List (Nat × Executor.Ev)} (hs : Start c s0) (h : Exec c s0 as tr s) {d : Nat} {ts : List Nat} (hd : c.tasks d = some ts) :
    ∃ acts tr0, Executor.exec (c.exec d ts) Executor.init acts = some (s.ex d, tr0 ++ evsOf d tr) := by
  obtain ⟨acts0, tr0, -, hx0⟩ := hs.calls d ts hd
  obtain ⟨acts, hx, -⟩ := proj_exec hwf (inv_start hwf h0 hs) h hd
  exact ⟨_, _, Executor.exec_trans hx0 hx⟩

/-- The system is an execution of the interrupt machine: everything proved of it (C46, C47, C52, C64, C74) holds. -/
theorem proj_srp {c : Cfg} {s s' : St} {as : List Act} {tr : List (Nat × Executor.Ev)} (h : Exec c s as tr s') : ∃ bs, Srp.Exec c.srp s.m bs s'.m := by
  induction h with
  | nil => exact ⟨[], .nil _⟩
  | snoc h hs ih =>
    obtain ⟨bs, hb⟩ := ih
    cases hs with
    | irqHw h m' ht hp hbest hm => exact ⟨_, .snoc hb hm⟩
    | irqDisp h ts m' ht hp hbest hm => exact ⟨_, .snoc hb hm⟩
    | code a m' hq hc hm hni hu hf => exact ⟨_, .snoc hb hm⟩
    | _ => exact ⟨bs, hb⟩

theorem Exec.trans {c : Cfg} {s1 s2 s3 : St} {as bs : List Act} {t1 t2 : List (Nat × Executor.Ev)} (h1 : Exec c s1 as t1 s2) (h2 : Exec c s2 bs t2 s3) : Exec c s1 (as ++ bs) (t1 ++ t2) s3 := by
  induction h2 with
  | nil => simpa using h1
  | snoc h hs ih => rw [← List.append_assoc, ← List.append_assoc]; exact .snoc ih hs

/-- a dispatcher that can proceed and is admitted by the hardware must be taken -/
theorem ready_takeable {c : Cfg} (hwf : Srp.WellFormed c.srp) {s : St} (hi : Inv c s) {d : Nat} {ts : List Nat} (hd : c.tasks d = some ts) (hp : 1 ≤ c.srp.prio d) (hr : Executor.Ready (c.exec d ts) (s.ex d))
    {cur : Nat} (ht : Srp.top s.m.stack = some cur) (ha : Srp.admits c.srp.bits s.m.bp s.m.pm (c.srp.prio cur) (c.srp.prio d)) : takeable c s d := by
  refine ⟨hp, ?_, cur, ht, ha⟩
  have hidle : (s.ex d).d = .idle := by
    by_cases hn : (s.ex d).d = .idle
    · exact hn
    · exact absurd (hi.act d ts hd hp hn) (not_active hwf hi.m hp ht ha)
  obtain ⟨s1, e, hs⟩ := hr
  have hz : decide (c.srp.prio d = 0) = false := by simp; omega
  simp only [pended, hd]
  simp only [Executor.step, Executor.stepDisp, hidle, Cfg.exec, hz, Bool.or_false] at hs
  split at hs
  · cases hs
  · split at hs
    · assumption
    · cases hs

/-- something of priority `q` or more is pending or active -/
def Urgent (c : Cfg) (q : Nat) (s : St) : Prop := ∃ h, q ≤ c.srp.prio h ∧ (pended c s h = true ∨ Active h s.m.stack)

theorem ready_urgent {c : Cfg} {s : St} (hi : Inv c s) {d : Nat} {ts : List Nat} (hd : c.tasks d = some ts) (hp : 1 ≤ c.srp.prio d) (hr : Executor.Ready (c.exec d ts) (s.ex d)) : Urgent c (c.srp.prio d) s := by
  refine ⟨d, Nat.le_refl _, ?_⟩
  by_cases hn : (s.ex d).d = .idle
  · left
    obtain ⟨s1, e, hs⟩ := hr
    have hz : decide (c.srp.prio d = 0) = false := by simp; omega
    simp only [pended, hd]
    simp only [Executor.step, Executor.stepDisp, hn, Cfg.exec, hz, Bool.or_false] at hs
    split at hs
    · cases hs
    · split at hs
      · assumption
      · cases hs
  · exact .inr (hi.act d ts hd hp hn)

/-- if the hardware would admit priority `q`, and something as urgent is pending or active, then something as urgent is to be taken -/
theorem urgent_takeable {c : Cfg} (hwf : Srp.WellFormed c.srp) {s : St} (hi : Inv c s) {q : Nat} (hq : 1 ≤ q) (hq2 : q ≤ 2 ^ c.srp.bits) (hu : Urgent c q s) {cur : Nat} (ht : Srp.top s.m.stack = some cur)
    (ha : Srp.admits c.srp.bits s.m.bp s.m.pm (c.srp.prio cur) q) : ∃ h, takeable c s h ∧ q ≤ c.srp.prio h := by
  obtain ⟨h, hle, hpa⟩ := hu
  have ha2 : Srp.admits c.srp.bits s.m.bp s.m.pm (c.srp.prio cur) (c.srp.prio h) := by
    rw [hi.m.bp, Srp.admits_iff hwf.bits (Srp.level_lt hi.m.ok) hq hq2 (hwf.prio cur)] at ha
    rw [hi.m.bp, Srp.admits_iff hwf.bits (Srp.level_lt hi.m.ok) (by omega) (hwf.prio h) (hwf.prio cur)]
    exact ⟨ha.1, by omega, by omega⟩
  rcases hpa with hp | hact
  · exact ⟨h, ⟨by omega, hp, cur, ht, ha2⟩, hle⟩
  · exact absurd hact (not_active hwf hi.m (by omega) ht ha2)

/-- a critical section that blocks priority `q` now was entered before `s2` -/
def OldBlock (c : Cfg) (q : Nat) (s2 s : St) : Prop := Srp.Blocked c.srp q s.m.stack → ∃ x below, Srp.BlockedAt c.srp q x below ∧ (x :: below) <:+ s2.m.stack ∧ (x :: below) <:+ s.m.stack

theorem oldBlock_refl (c : Cfg) (q : Nat) (s : St) : OldBlock c q s s := fun ⟨x, b, h1, h2⟩ => ⟨x, b, h2, h1, h1⟩

/-- while something as urgent as `q` is pending or active, no critical section that blocks `q` is entered and nothing less urgent is started -/
theorem urgent_step {c : Cfg} (hwf : Srp.WellFormed c.srp) {t : Nat} (hq : 1 ≤ c.srp.prio t) {s2 s s' : St} {a : Act} {ev : List (Nat × Executor.Ev)} (hi : Inv c s) (hu : Urgent c (c.srp.prio t) s) (hs : Step c s a ev s') (ho : OldBlock c (c.srp.prio t) s2 s) :
    OldBlock c (c.srp.prio t) s2 s' ∧ ∀ h, a = .irq h → c.srp.prio t ≤ c.srp.prio h := by
  -- a step of the interrupt machine obeys the urgency rule
  have hsrp : ∀ {b : Srp.Act} {m' : Srp.St}, Srp.Step c.srp s.m b m' → (∀ cur, Srp.top s.m.stack = some cur → Srp.admits c.srp.bits s.m.bp s.m.pm (c.srp.prio cur) (c.srp.prio t) → ∃ t', b = .irq t' ∧ c.srp.prio t ≤ c.srp.prio t') →
      (Srp.Blocked c.srp (c.srp.prio t) m'.stack → ∃ x below, Srp.BlockedAt c.srp (c.srp.prio t) x below ∧ (x :: below) <:+ s2.m.stack ∧ (x :: below) <:+ m'.stack) := by
    intro b m' hm hu'
    rintro ⟨x, below, hsuf, hb⟩
    obtain ⟨hb1, hcase⟩ := Srp.waiting_step hwf hi.m (t := t) hq hm hu' hsuf hb
    obtain ⟨x1, b1, g1, g2, g3⟩ := ho hb1
    rcases Srp.step_suffix hm g3 with h | h
    · exact ⟨x1, b1, g1, g2, h⟩
    · rcases hcase with hc | ⟨y, mm, hm1, hm2, x2, b2, k1, k2⟩
      · exact ⟨x, below, hb, by rw [← h] at hc; exact hc.trans g2, hsuf⟩
      · refine ⟨x2, b2, k2, ?_, by rw [hm1]; exact k1.trans (List.suffix_cons _ _)⟩
        rw [← h] at hm2
        exact k1.trans (hm2.trans g2)
  have hbest' : ∀ h, (∀ h', takeable c s h' → c.srp.prio h' ≤ c.srp.prio h) → ∀ cur, Srp.top s.m.stack = some cur → Srp.admits c.srp.bits s.m.bp s.m.pm (c.srp.prio cur) (c.srp.prio t) → c.srp.prio t ≤ c.srp.prio h := by
    intro h hbest cur htop hadm
    obtain ⟨h', h1, h2⟩ := urgent_takeable hwf hi hq (hwf.prio t) hu htop hadm
    exact Nat.le_trans h2 (hbest h' h1)
  have instart : ∀ h, (∀ h', takeable c s h' → c.srp.prio h' ≤ c.srp.prio h) → takeable c s h → c.srp.prio t ≤ c.srp.prio h := by
    intro h hbest ⟨hp', hpend, cur, htop, hadm⟩
    rcases Nat.lt_or_ge (c.srp.prio h) (c.srp.prio t) with hlt | hge
    · refine hbest' h hbest cur htop ?_
      rw [hi.m.bp, Srp.admits_iff hwf.bits (Srp.level_lt hi.m.ok) hp' (hwf.prio h) (hwf.prio cur)] at hadm
      rw [hi.m.bp, Srp.admits_iff hwf.bits (Srp.level_lt hi.m.ok) hq (hwf.prio t) (hwf.prio cur)]
      exact ⟨hadm.1, by omega, by omega⟩
    · exact hge
  cases hs with
  | irqHw h m' ht hp' hbest hm => exact ⟨hsrp hm (fun cur htop hadm => ⟨h, rfl, hbest' h hbest cur htop hadm⟩), fun h' e => by cases e; exact instart h hbest hp'⟩
  | irqDisp h ts' m' ht hp' hbest hm => exact ⟨hsrp hm (fun cur htop hadm => ⟨h, rfl, hbest' h hbest cur htop hadm⟩), fun h' e => by cases e; exact instart h hbest hp'⟩
  | code a m' hqu hc hm hni hu' hf =>
    refine ⟨hsrp hm (fun cur htop hadm => ?_), by simp⟩
    obtain ⟨h', h1, -⟩ := urgent_takeable hwf hi hq (hwf.prio t) hu htop hadm
    exact absurd h1 (hqu h')
  | _ => exact ⟨ho, by simp⟩

theorem own_quiet {c : Cfg} {s s' : St} {a : Act} {ev : List (Nat × Executor.Ev)} (hs : Step c s a ev s') (hown : a.own = true) : quiet c s := by
  cases hs <;> first | assumption | cases hown

/-- while something as urgent as `q` is pending or active, code of lower priority makes a step only inside a critical section that blocks `q` -/
theorem urgent_next {c : Cfg} (hwf : Srp.WellFormed c.srp) {t : Nat} (hq : 1 ≤ c.srp.prio t) {s : St} (hi : Inv c s) (hu : Urgent c (c.srp.prio t) s) (hqu : quiet c s) {cur : Nat} (htop : Srp.top s.m.stack = some cur) :
    c.srp.prio t ≤ c.srp.prio cur ∨ Srp.Blocked c.srp (c.srp.prio t) s.m.stack := by
  rcases Nat.lt_or_ge (c.srp.prio cur) (c.srp.prio t) with hlt | hge
  · by_cases hb : Srp.Blocked c.srp (c.srp.prio t) s.m.stack
    · exact .inr hb
    · obtain ⟨h, h1, -⟩ := urgent_takeable hwf hi hq (hwf.prio t) hu htop (Srp.admitted_of_free hwf hi.m hq htop hlt hb)
      exact absurd h1 (hqu h)
  · exact .inl hge

/-- While dispatcher `d` can proceed, in every state from `s2` to `s3`. -/
theorem preempts_quiet {c : Cfg} (hwf : Srp.WellFormed c.srp) {d : Nat} {ts : List Nat} (hd : c.tasks d = some ts) (hp : 1 ≤ c.srp.prio d) {s2 s3 : St} {as : List Act} {tr : List (Nat × Executor.Ev)} (hi : Inv c s2) (hx : Exec c s2 as tr s3)
    (hr : ∀ as' tr' s', Exec c s2 as' tr' s' → (∃ as'' tr'', as = as' ++ as'' ∧ tr = tr' ++ tr'') → Executor.Ready (c.exec d ts) (s'.ex d)) :
    (∀ cur, quiet c s3 → Srp.top s3.m.stack = some cur → c.srp.prio d ≤ c.srp.prio cur ∨
      ∃ x below, Srp.BlockedAt c.srp (c.srp.prio d) x below ∧ (x :: below) <:+ s2.m.stack ∧ (x :: below) <:+ s3.m.stack) ∧
    (∀ h, .irq h ∈ as → c.srp.prio d ≤ c.srp.prio h) := by
  have key : OldBlock c (c.srp.prio d) s2 s3 ∧ (∀ h, .irq h ∈ as → c.srp.prio d ≤ c.srp.prio h) := by
    induction hx with
    | nil => exact ⟨oldBlock_refl _ _ _, by simp⟩
    | @snoc s s' as tr a ev h hs ih =>
      have hi' := inv_exec hwf hi h
      have hr' := hr _ _ _ h ⟨_, _, rfl, rfl⟩
      obtain ⟨ih1, ih2⟩ := ih (fun as' tr' s' hx' ⟨as'', tr'', h1, h2⟩ => hr as' tr' s' hx' ⟨as'' ++ [a], tr'' ++ ev, by rw [h1, List.append_assoc], by rw [h2, List.append_assoc]⟩)
      obtain ⟨k1, k2⟩ := urgent_step hwf hp hi' (ready_urgent hi' hd hp hr') hs ih1
      refine ⟨k1, ?_⟩
      intro h hm
      rcases List.mem_append.1 hm with hm | hm
      · exact ih2 h hm
      · exact k2 h (List.mem_singleton.1 hm).symm
  refine ⟨?_, key.2⟩
  intro cur hqu htop
  have hi' := inv_exec hwf hi hx
  rcases urgent_next hwf hp hi' (ready_urgent hi' hd hp (hr _ _ _ hx ⟨[], [], by simp, by simp⟩)) hqu htop with h | h
  · exact .inl h
  · exact .inr (key.1 h)

theorem preempts_of_ready {c : Cfg} (hwf : Srp.WellFormed c.srp) {d : Nat} {ts : List Nat} (hd : c.tasks d = some ts) (hp : 1 ≤ c.srp.prio d) {s2 s3 : St} {as : List Act} {tr : List (Nat × Executor.Ev)} (hi : Inv c s2) (hx : Exec c s2 as tr s3)
    (hr : ∀ as' tr' s', Exec c s2 as' tr' s' → (∃ as'' tr'', as = as' ++ as'' ∧ tr = tr' ++ tr'') → Executor.Ready (c.exec d ts) (s'.ex d)) :
    (∀ a ev s4 cur, Step c s3 a ev s4 → a.own = true → Srp.top s3.m.stack = some cur → c.srp.prio d ≤ c.srp.prio cur ∨
      ∃ x below, Srp.BlockedAt c.srp (c.srp.prio d) x below ∧ (x :: below) <:+ s2.m.stack ∧ (x :: below) <:+ s3.m.stack) ∧
    (∀ h, .irq h ∈ as → c.srp.prio d ≤ c.srp.prio h) :=
  ⟨fun a ev s4 cur hs hown htop => (preempts_quiet hwf hd hp hi hx hr).1 cur (own_quiet hs hown) htop, (preempts_quiet hwf hd hp hi hx hr).2⟩

theorem prefix_evs {d : Nat} {e : Executor.Ev} {tr1 tr tr' tr'' : List (Nat × Executor.Ev)} (h : (d, e) ∉ tr1 ++ tr) (ht : tr = tr' ++ tr'') : e ∉ evsOf d tr1 ++ evsOf d tr' := by
  subst ht
  rw [← evsOf_append, mem_evsOf]
  intro hm
  exact h (by rw [← List.append_assoc]; exact List.mem_append_left _ hm)

/-- A task that is due stays so until it is polled or completes. -/
theorem due_serve {c : Cfg} (hwf : Srp.WellFormed c.srp) {d u : Nat} {ts : List Nat} (hd : c.tasks d = some ts) (hu : u ∈ ts) {s2 s3 : St} {as : List Act} {tr : List (Nat × Executor.Ev)} (hi : Inv c s2)
    (hreach : ∃ acts e, Executor.exec (c.exec d ts) Executor.init acts = some (s2.ex d, e)) (hdue : Executor.Due (c.exec d ts) u (s2.ex d)) (hub : (s2.ex d).ub = false) (hx : Exec c s2 as tr s3)
    (hno : (d, .polled u) ∉ tr) (hcomp : (d, .completed u) ∉ tr) (hbad : ∀ t', (d, .badPoll t') ∉ tr) : Executor.Ready (c.exec d ts) (s3.ex d) ∧ accesses d as < Executor.twoRounds (c.exec d ts) := by
  obtain ⟨acts, hy, hc⟩ := proj_exec hwf hi hx hd
  obtain ⟨acts0, e0, hy0⟩ := hreach
  have hns : ¬ Executor.Served u (evsOf d tr) := by
    rintro (h | h | ⟨t', h⟩)
    · exact hno (mem_evsOf.1 h)
    · exact hcomp (mem_evsOf.1 h)
    · exact hbad t' (mem_evsOf.1 h)
  have hk := (Executor.due_kept (show u ∈ (c.exec d ts).ts from hu) hdue hy).resolve_left hns
  have hub' := (Executor.ub_exec hub hy).resolve_right (fun ⟨t', h⟩ => hbad t' (mem_evsOf.1 h))
  refine ⟨Executor.due_ready hk hub', ?_⟩
  rw [← hc]
  refine Nat.lt_of_not_le fun hle => hns (Executor.due_exec (show u ∈ (c.exec d ts).ts from hu) hdue hy ?_)
  have := Executor.reach_bound hy0 u
  omega

/-- **C82** (spawn) In a running application, handler `i` (any handler, at any depth of preemption) makes the access that decides that its `spawn` of task `u` succeeds (`s0` to `s1`); the call returns (`s2`); the task has not been polled up to `s3`. Then from `s2` to `s3` no code of lower priority than the task has
run, except inside critical sections that were entered before the call returned and block the task's priority; nothing of lower priority was started; and the dispatcher has made less than two rounds over its tasks. -/
theorem C82_spawned_preempts {c : Cfg} (hwf : Srp.WellFormed c.srp) (h0 : c.srp.prio 0 = 0) {st s0 s1 s2 s3 : St} {as0 as1 as2 : List Act} {tr0 tr1 tr2 : List (Nat × Executor.Ev)} {d u a : Nat} {ts : List Nat}
    (hst : Start c st) (hx0 : Exec c st as0 tr0 s0) (hd : c.tasks d = some ts) (hu : u ∈ ts) (hp : 1 ≤ c.srp.prio d)
    (hok : Step c s0 (.call d) [(d, .ok u a)] s1) (hx1 : Exec c s1 as1 tr1 s2) (hret : (s2.ex d).pc (depth s0.m.stack) = .idle) (hx2 : Exec c s2 as2 tr2 s3)
    (hno : (d, .polled u) ∉ tr1 ++ tr2) (hbad : ∀ t', (d, .badPoll t') ∉ tr1 ++ tr2) : Preempts c d ts s2 as2 s3 := by
  have hi0 := inv_exec hwf (inv_start hwf h0 hst) hx0
  have hi1 := inv_step hwf hi0 hok
  have hi2 := inv_exec hwf hi1 hx1
  obtain ⟨acts0, e0, hy0⟩ := proj_start hwf h0 hst hx0 hd
  obtain ⟨acts1, hy1, -⟩ := proj_exec hwf hi1 hx1 hd
  -- the access is one of the executor
  have hstep : Executor.step (c.exec d ts) (s0.ex d) (.thr (depth s0.m.stack)) = some (s1.ex d, [.ok u a]) := by
    generalize htr : [(d, Executor.Ev.ok u a)] = tr at hok
    cases hok with
    | call _ ts' e' ev hq hu' hd' hs =>
      rw [hd] at hd'; cases hd'
      have : ev = [.ok u a] := by
        have := congrArg (evsOf d) htr
        rw [evsOf_map_same] at this
        rw [← this]; simp [evsOf]
      simp only [upd_same]
      rw [hs, this]
  have serve : ∀ as' tr' s', Exec c s2 as' tr' s' → (∃ as'' tr'', as2 = as' ++ as'' ∧ tr2 = tr' ++ tr'') → Executor.Ready (c.exec d ts) (s'.ex d) ∧ accesses d as' < Executor.twoRounds (c.exec d ts) := by
    rintro as' tr' s' hx' ⟨as'', tr'', -, ht⟩
    obtain ⟨acts2, hy2, hc⟩ := proj_exec hwf hi2 hx' hd
    rcases Executor.C37_spawned_is_polled hy0 (show u ∈ (c.exec d ts).ts from hu) hstep rfl hy1 hret hy2 with h | ⟨t', h⟩ | h
    · exact absurd h (prefix_evs hno ht)
    · exact absurd h (prefix_evs (hbad t') ht)
    · rw [← hc]; exact h
  obtain ⟨h1, h2⟩ := preempts_of_ready hwf hd hp hi2 hx2 (fun as' tr' s' hx' hpre => (serve as' tr' s' hx' hpre).1)
  exact ⟨h1, h2, (serve as2 tr2 s3 hx2 ⟨[], [], by simp, by simp⟩).2⟩

/-- **C82** (wake) The same for a waker of the live task `u`, called by any handler (`s0` to `s1`), until the task is polled or, if it was just being polled when the waker was called, completes in that poll. -/
theorem C82_woken_preempts {c : Cfg} (hwf : Srp.WellFormed c.srp) (h0 : c.srp.prio 0 = 0) {st s0 s1 s2 s3 : St} {as0 as1 as2 : List Act} {tr0 ev1 tr1 tr2 : List (Nat × Executor.Ev)} {d u : Nat} {ts : List Nat}
    (hst : Start c st) (hx0 : Exec c st as0 tr0 s0) (hd : c.tasks d = some ts) (hp : 1 ≤ c.srp.prio d) (hlive : (s0.ex d).running u = true)
    (hcall : Step c s0 (.wake d u) ev1 s1) (hx1 : Exec c s1 as1 tr1 s2) (hret : (s2.ex d).pc (depth s0.m.stack) = .idle) (hx2 : Exec c s2 as2 tr2 s3)
    (hno : (d, .polled u) ∉ tr1 ++ tr2) (hcomp : (d, .completed u) ∉ tr1 ++ tr2) (hbad : ∀ t', (d, .badPoll t') ∉ tr1 ++ tr2) : Preempts c d ts s2 as2 s3 := by
  have hi0 := inv_exec hwf (inv_start hwf h0 hst) hx0
  have hi1 := inv_step hwf hi0 hcall
  have hi2 := inv_exec hwf hi1 hx1
  obtain ⟨acts0, e0, hy0⟩ := proj_start hwf h0 hst hx0 hd
  obtain ⟨acts1, hy1, -⟩ := proj_exec hwf hi1 hx1 hd
  have hstep : ∃ ev, Executor.step (c.exec d ts) (s0.ex d) (.callWake (depth s0.m.stack) u) = some (s1.ex d, ev) := by
    cases hcall with
    | wake _ ts' _ e' ev hq hc hu' hd' hs =>
      rw [hd] at hd'; cases hd'
      exact ⟨ev, by simp only [upd_same]; exact hs⟩
  obtain ⟨ev, hstep⟩ := hstep
  have serve : ∀ as' tr' s', Exec c s2 as' tr' s' → (∃ as'' tr'', as2 = as' ++ as'' ∧ tr2 = tr' ++ tr'') → Executor.Ready (c.exec d ts) (s'.ex d) ∧ accesses d as' < Executor.twoRounds (c.exec d ts) := by
    rintro as' tr' s' hx' ⟨as'', tr'', -, ht⟩
    obtain ⟨acts2, hy2, hc⟩ := proj_exec hwf hi2 hx' hd
    rcases Executor.C37_woken_is_polled hy0 hlive hstep hy1 hret hy2 with h | ⟨-, h⟩ | ⟨t', h⟩ | h
    · exact absurd h (prefix_evs hno ht)
    · exact absurd h (prefix_evs hcomp ht)
    · exact absurd h (prefix_evs (hbad t') ht)
    · rw [← hc]; exact h
  obtain ⟨h1, h2⟩ := preempts_of_ready hwf hd hp hi2 hx2 (fun as' tr' s' hx' hpre => (serve as' tr' s' hx' hpre).1)
  exact ⟨h1, h2, (serve as2 tr2 s3 hx2 ⟨[], [], by simp, by simp⟩).2⟩

/-- **C82** (consequence) If nothing of lower priority is inside a critical section blocking the task when the call returns, no code of lower priority makes a step before the task is polled; in particular the caller, if it has a lower priority, does not. -/
theorem C82_runs_first {c : Cfg} {d : Nat} {ts : List Nat} {s2 s3 : St} {as : List Act} (h : Preempts c d ts s2 as s3) (hb : ¬ Srp.Blocked c.srp (c.srp.prio d) s2.m.stack) {a : Act} {ev : List (Nat × Executor.Ev)} {s4 : St} {cur : Nat}
    (hs : Step c s3 a ev s4) (hown : a.own = true) (ht : Srp.top s3.m.stack = some cur) : c.srp.prio d ≤ c.srp.prio cur := by
  rcases h.next a ev s4 cur hs hown ht with h | ⟨x, b, h1, h2, -⟩
  · exact h
  · exact absurd ⟨x, b, h2, h1⟩ hb

theorem best_exists {c : Cfg} (hwf : Srp.WellFormed c.srp) {s : St} {h : Nat} (ht : takeable c s h) : ∃ h', takeable c s h' ∧ c.srp.prio h ≤ c.srp.prio h' ∧ ∀ k, takeable c s k → c.srp.prio k ≤ c.srp.prio h' := by
  have : ∀ n h, 2 ^ c.srp.bits - c.srp.prio h ≤ n → takeable c s h → ∃ h', takeable c s h' ∧ c.srp.prio h ≤ c.srp.prio h' ∧ ∀ k, takeable c s k → c.srp.prio k ≤ c.srp.prio h' := by
    intro n
    induction n with
    | zero =>
      intro h hn ht
      refine ⟨h, ht, Nat.le_refl _, fun k _ => ?_⟩
      have := hwf.prio k
      omega
    | succ n ih =>
      intro h hn ht
      by_cases hk : ∃ k, takeable c s k ∧ c.srp.prio h < c.srp.prio k
      · obtain ⟨k, hk, hlt⟩ := hk
        obtain ⟨h', h1, h2, h3⟩ := ih k (by omega) hk
        exact ⟨h', h1, by omega, h3⟩
      · exact ⟨h, ht, Nat.le_refl _, fun k hk' => Nat.le_of_not_lt fun hlt => hk ⟨k, hk', hlt⟩⟩
  exact this _ h (Nat.le_refl _) ht

/-- the processor can always take an interrupt that has to be taken -/
theorem take_exists {c : Cfg} (hwf : Srp.WellFormed c.srp) {s : St} {h : Nat} (ht : takeable c s h) : ∃ h' s', c.srp.prio h ≤ c.srp.prio h' ∧ Step c s (.irq h') [] s' := by
  obtain ⟨h', h1, h2, h3⟩ := best_exists hwf ht
  obtain ⟨hp, hpend, cur, htop, hadm⟩ := h1
  cases hts : c.tasks h' with
  | none => exact ⟨h', _, h2, .irqHw h' _ hts ⟨hp, hpend, cur, htop, hadm⟩ h3 (.irq h' cur htop hp hadm)⟩
  | some ts => exact ⟨h', _, h2, .irqDisp h' ts _ hts ⟨hp, hpend, cur, htop, hadm⟩ h3 (.irq h' cur htop hp hadm)⟩

/-- **C82** (at once) While a task of dispatcher `d` is due (its dispatcher can proceed), and code of lower priority is at the processor, in no critical section that blocks `d`: the next step is that `d` or something at least as urgent takes over, and this step is possible. -/
theorem C82_taken_at_once {c : Cfg} (hwf : Srp.WellFormed c.srp) (h0 : c.srp.prio 0 = 0) {st s : St} {as : List Act} {tr : List (Nat × Executor.Ev)} (hst : Start c st) (hx : Exec c st as tr s) {d : Nat} {ts : List Nat} (hd : c.tasks d = some ts) (hp : 1 ≤ c.srp.prio d)
    (hr : Executor.Ready (c.exec d ts) (s.ex d)) {cur : Nat} (ht : Srp.top s.m.stack = some cur) (hlt : c.srp.prio cur < c.srp.prio d) (hb : ¬ Srp.Blocked c.srp (c.srp.prio d) s.m.stack) :
    (∃ h s', c.srp.prio d ≤ c.srp.prio h ∧ Step c s (.irq h) [] s') ∧ ∀ a ev s', Step c s a ev s' → a.own = true → False := by
  have hi := inv_exec hwf (inv_start hwf h0 hst) hx
  have htk := ready_takeable hwf hi hd hp hr ht (Srp.admitted_of_free hwf hi.m hp ht hlt hb)
  refine ⟨take_exists hwf htk, ?_⟩
  intro a ev s' hs hown
  have hq : quiet c s := by
    cases hs <;> first | assumption | cases hown
  exact hq d htk

/-! ## Non-vacuity -/

/-- the thread, a dispatcher (handler 1, priority 1) polling task 7, a hardware task (handler 2, priority 2) -/
def demo : Cfg := { srp := { bits := 2, prio := fun h => if h = 1 then 1 else if h = 2 then 2 else 0, uses := fun _ _ => False, ceil := fun _ => 0 }, tasks := fun h => if h = 1 then some [7] else none }

theorem demo_wf : Srp.WellFormed demo.srp :=
  ⟨by decide, fun t => by show (if t = 1 then 1 else if t = 2 then 2 else 0) ≤ 4; split <;> (try split) <;> omega, fun _ _ h => h.elim, fun _ => Nat.zero_le _⟩

def demoStart : St := { m := Srp.start 0, pend := fun _ => false, ex := fun _ => Executor.init }

theorem demo_start : Start demo demoStart := ⟨rfl, fun _ _ _ => ⟨[], [], by simp, rfl⟩, fun _ _ => rfl⟩

theorem demo_quiet {s : St} (h1 : s.pend = fun _ => false) (h2 : (s.ex 1).irq = false) : quiet demo s := by
  rintro h ⟨-, hp, -⟩
  simp only [pended, demo] at hp
  split at hp
  · rename_i hh
    split at hh
    · subst_vars; rw [h2] at hp; cases hp
    · cases hh
  · rw [h1] at hp; cases hp

theorem demo_user {s : St} (h : s.m.stack = [.body 0 none]) : userCode demo s := by
  refine ⟨by rw [h]; rfl, ?_⟩
  intro h' ts ht hts
  rw [h] at ht; cases ht
  simp [demo] at hts

/-- the thread runs, the executor is in state `e` -/
def demoAt (e : Executor.St) : St := { m := Srp.start 0, pend := fun _ => false, ex := fun h => if h = 1 then e else Executor.init }

theorem demo_upd (e e' : Executor.St) : { demoAt e with ex := upd (demoAt e).ex 1 e' } = demoAt e' := by
  simp only [demoAt, St.mk.injEq, true_and]
  funext h
  simp only [upd]
  split <;> rfl

theorem demo_call {e e' : Executor.St} {ev : List Executor.Ev} (hirq : e.irq = false) (hs : Executor.step (demo.exec 1 [7]) e (.thr 1) = some (e', ev)) : Step demo (demoAt e) (.call 1) (ev.map (1, ·)) (demoAt e') := by
  have := Step.call (c := demo) (s := demoAt e) 1 [7] e' ev (demo_quiet rfl hirq) (demo_user rfl) rfl hs
  rwa [demo_upd] at this

/-- idle spawns task 7: when the call returns, the interrupt of the dispatcher is pending and idle is not in a critical section: no step of idle is possible, and the dispatcher takes over. -/
example : ∃ s0 s1 s2 as0 tr0 as1 tr1, Exec demo demoStart as0 tr0 s0 ∧ Step demo s0 (.call 1) [(1, .ok 7 5)] s1 ∧ Exec demo s1 as1 tr1 s2 ∧ (s2.ex 1).pc (depth s0.m.stack) = .idle ∧ (∀ e, e ∉ tr1) ∧
    Srp.top s2.m.stack = some 0 ∧ ¬ Srp.Blocked demo.srp 1 s2.m.stack ∧ Executor.Ready (demo.exec 1 [7]) (s2.ex 1) ∧ ∃ s3, Step demo s2 (.irq 1) [] s3 := by
  have hst : demoStart = demoAt Executor.init := by simp only [demoStart, demoAt, ite_self]
  have e0 := Step.spawn (c := demo) (s := demoAt Executor.init) 1 [7] 7 5 _ [] (demo_quiet rfl rfl) (fun d => by simp only [demoAt, ite_self]; rfl) (demo_user rfl) rfl rfl
  rw [demo_upd] at e0
  have e1 := demo_call (e := { Executor.init with pc := Executor.upd Executor.init.pc 1 (.s1 7 5) }) (ev := [.ok 7 5]) rfl rfl
  have e2 := demo_call (e := { Executor.init with running := Executor.upd Executor.init.running 7 true, pc := Executor.upd (Executor.upd Executor.init.pc 1 (.s1 7 5)) 1 (.s2 7 5) }) (ev := []) rfl rfl
  have e3 := demo_call (ev := []) rfl (show Executor.step (demo.exec 1 [7]) { Executor.init with running := Executor.upd Executor.init.running 7 true, slot := Executor.upd Executor.init.slot 7 (.fresh 5), pc := Executor.upd (Executor.upd (Executor.upd Executor.init.pc 1 (.s1 7 5)) 1 (.s2 7 5)) 1 (.s3 7) } (.thr 1) = some (_, []) from rfl)
  have e4 := demo_call (ev := []) rfl (show Executor.step (demo.exec 1 [7]) { Executor.init with running := Executor.upd Executor.init.running 7 true, slot := Executor.upd Executor.init.slot 7 (.fresh 5), pending := Executor.upd Executor.init.pending 7 true, pc := Executor.upd (Executor.upd (Executor.upd (Executor.upd Executor.init.pc 1 (.s1 7 5)) 1 (.s2 7 5)) 1 (.s3 7)) 1 (.p 7) } (.thr 1) = some (_, []) from rfl)
  refine ⟨_, _, _, _, _, _, _, by rw [hst]; exact .snoc (.nil _) e0, e1, .snoc (.snoc (.snoc (.nil _) e2) e3) e4, rfl, by simp, rfl, ?_, ⟨_, _, rfl⟩, ?_⟩
  · rintro ⟨x, b, hs, hb, -⟩
    have : x ∈ [Srp.Rec.body 0 none] := hs.subset List.mem_cons_self
    simp at this
    subst this
    exact hb
  · refine ⟨_, .irqDisp 1 [7] _ rfl ⟨by decide, rfl, 0, rfl, by decide⟩ ?_ (.irq 1 0 rfl (by decide) (by decide))⟩
    rintro h ⟨-, hp, -⟩
    simp only [pended, demo] at hp
    split at hp
    · rename_i hh
      split at hh
      · subst_vars; exact Nat.le_refl _
      · cases hh
    · cases hp

end Verif.System
