import Verif.EspTimed.Model

/-!
# C106: a task whose delay has expired runs before anything of lower priority, on ESP32-C3/C6
-/

namespace Verif.EspTimed

open Verif
open Verif.Timed (opOf opStart waitsEx delay_weaken waitsEx_le waitsEx_map waitsEx_nil op_frame hd_frame delay_calls)

/-! ## Specification -/

/-- delay `i` is overdue: its instant (plus the slack of the hardware compare, 0 for most timers) is not in the future -/
def Overdue (c : Cfg) (i : Nat) (s : St) : Prop := s.tq.inst i + c.tb.sl ≤ s.tq.now

/-- Some code of lower priority than `q` is preempted after it has inserted its delay as the new earliest one, and before it has pended the timer interrupt (`timer_queue.rs:241-244`). -/
def HeldUp (c : Cfg) (q : Nat) (s : St) : Prop := ∃ j, s.tq.pc j = .p2 ∧ ∀ d ts, c.sys.tasks d = some ts → c.own j ∈ ts → c.sys.hw.prio d < q

/-- executions in all states of which `P` holds -/
inductive While (c : Cfg) (P : St → Prop) : St → List Act → St → Prop
  | nil {s} (h : P s) : While c P s [] s
  | snoc {s s1 s2 as a ev} (h : While c P s as s1) (hs : Step c s1 a ev s2) (hp : P s2) : While c P s (as ++ [a]) s2

/-! ## Proofs -/

def dcfg (c : Cfg) (d : Nat) (ts : List Nat) : Delay.Cfg := { tb := c.tb, xc := c.sys.exec d ts, own := c.own, hid := 0 }
def dst (s : St) (d : Nat) : Delay.St := { tq := s.tq, ex := s.y.ex d, inCall := decide (s.call = some d), waits := s.waits }

structure Inv (c : Cfg) (t0 : Nat) (s : St) : Prop where
  y : EspSystem.Inv c.sys t0 s.y
  line : s.y.pend c.th = s.tq.irq
  hact : s.tq.h ≠ .idle → EspSystem.Active c.th s.y.m.stack ∨ s.inl = true
  inl : s.inl = true → ∃ rest, s.y.m.stack = .cs none false :: rest
  del : ∀ d ts, c.sys.tasks d = some ts → Delay.Inv (dcfg c d ts) (dst s d)
  busy : ∀ i d ts, c.sys.tasks d = some ts → c.own i ∈ ts → ((∃ wk, s.tq.pc i = .p1 wk) ∨ s.tq.pc i = .p2) → ∃ rest, (s.y.ex d).d = .body (c.own i) rest
  calld : ∀ d, s.call = some d → ∃ ts, c.sys.tasks d = some ts

theorem inv_sync {c : Cfg} {t0 : Nat} {y : EspSystem.St} (hi : EspSystem.Inv c.sys t0 y) (q : TimerQueue.St) : EspSystem.Inv c.sys t0 (sync c y q) := ⟨hi.m, hi.act, hi.ub, hi.line⟩

theorem inv_caller {c : EspSystem.Cfg} {t0 : Nat} {s : EspSystem.St} (hi : EspSystem.Inv c t0 s) {d : Nat} {ts : List Nat} {a : Executor.Act} {e' : Executor.St} {ev : List Executor.Ev} (hs : Executor.step (c.exec d ts) (s.ex d) a = some (e', ev)) (ha : EspSystem.callAct a = true) :
    EspSystem.Inv c t0 { s with ex := EspSystem.upd s.ex d e' } := by
  obtain ⟨k1, k2⟩ := EspSystem.call_d hs ha
  have k3 := EspSystem.call_irq hs ha
  refine ⟨hi.m, ?_, ?_, ?_⟩
  · intro h ts' hh hp hn
    by_cases e : h = d
    · subst e; simp only [EspSystem.upd_same, k1] at hn; exact hi.act h ts' hh hp hn
    · simp only [EspSystem.upd_ne _ _ e] at hn; exact hi.act h ts' hh hp hn
  · intro h ts' hh hu
    by_cases e : h = d
    · subst e; simp only [EspSystem.upd_same, k1, k2] at hu ⊢; exact hi.ub h ts' hh hu
    · simp only [EspSystem.upd_ne _ _ e] at hu ⊢; exact hi.ub h ts' hh hu
  · intro h ts' prev hh hm hn
    by_cases e : h = d
    · subst e; simp only [EspSystem.upd_same, k1] at hn ⊢; exact k3 (hi.line h ts' prev hh hm hn)
    · simp only [EspSystem.upd_ne _ _ e] at hn ⊢; exact hi.line h ts' prev hh hm hn

theorem depth_top {l : List Esp32.Rec} {t : Nat} (h : Esp32.top l = some t) : EspSystem.depth l ≠ 0 := by
  induction l with
  | nil => cases h
  | cons x l ih => cases x <;> simp only [Esp32.top, EspSystem.depth] at h ⊢ <;> first | omega | exact ih h

/-- what a step of `Verif.EspSystem` is to the executors of one dispatcher -/
theorem ex_step {c : EspSystem.Cfg} {t0 : Nat} (hwf : Esp32.WellFormed c.hw) {s s' : EspSystem.St} {a : EspSystem.Act} {ev : List (Nat × Executor.Ev)} (hi : EspSystem.Inv c t0 s) (h : EspSystem.Step c s a ev s') {d : Nat} {ts : List Nat} (hd : c.tasks d = some ts) :
    s'.ex d = s.ex d ∨ ∃ b evd, Executor.step (c.exec d ts) (s.ex d) b = some (s'.ex d, evd) ∧ ev = evd.map (d, ·) ∧ (∀ t a', b ≠ .callSpawn 0 t a' ∧ b ≠ .callWake 0 t) ∧
      (EspSystem.callAct b = true ∨ (s.ex d).d = .idle ∨ (Esp32.top s.m.stack = some d ∧ a.own = true)) := by
  have hdep : EspSystem.userCode c s → EspSystem.depth s.m.stack ≠ 0 := by
    intro hu
    obtain ⟨t, ht⟩ := Esp32.top_of_inCode hi.m.ok hu.1
    exact depth_top ht
  cases h with
  | hw h ht => exact .inl rfl
  | unhw h ht => exact .inl rfl
  | irq h m' hp hbest hm => exact .inl rfl
  | unpend h prev rest ts' hq hst ht hidle =>
    by_cases e : h = d
    · subst e
      rw [hd] at ht; cases ht
      have hub : (s.ex h).ub = false := by
        cases hu : (s.ex h).ub
        · rfl
        · exact absurd hidle (hi.ub h ts hd hu)
      have hirq := hi.line h ts prev hd (by rw [hst]; exact List.mem_cons_self) hidle
      exact .inr ⟨.disp false, [], by simp [Executor.step, hub, Executor.stepDisp, hidle, hirq, EspSystem.Cfg.exec], rfl, by simp, .inr (.inl hidle)⟩
    · exact .inl (EspSystem.upd_ne _ _ (Ne.symm e))
  | code a m' hq hc hm hni hu hrun hf => exact .inl rfl
  | spawn d' ts' u a e' ev hq hc hu hd' hs =>
    by_cases e : d' = d
    · subst e; rw [hd] at hd'; cases hd'
      exact .inr ⟨_, _, by simp only [EspSystem.upd_same]; exact hs, rfl, by simp [hdep hu], .inl rfl⟩
    · exact .inl (EspSystem.upd_ne _ _ (Ne.symm e))
  | wake d' ts' u e' ev hq hc hu hd' hs =>
    by_cases e : d' = d
    · subst e; rw [hd] at hd'; cases hd'
      exact .inr ⟨_, _, by simp only [EspSystem.upd_same]; exact hs, rfl, by simp [hdep hu], .inl rfl⟩
    · exact .inl (EspSystem.upd_ne _ _ (Ne.symm e))
  | call d' ts' e' ev hq hu hd' hs =>
    by_cases e : d' = d
    · subst e; rw [hd] at hd'; cases hd'
      exact .inr ⟨_, _, by simp only [EspSystem.upd_same]; exact hs, rfl, by simp, .inl rfl⟩
    · exact .inl (EspSystem.upd_ne _ _ (Ne.symm e))
  | disp h prev i rest ts' r e' ev hq hc hst hd' hr hs =>
    by_cases e : h = d
    · subst e; rw [hd] at hd'; cases hd'
      exact .inr ⟨_, _, by simp only [EspSystem.upd_same]; exact hs, rfl, by simp, .inr (.inr ⟨by rw [hst]; rfl, rfl⟩)⟩
    · exact .inl (EspSystem.upd_ne _ _ (Ne.symm e))

theorem pend_step {c : EspSystem.Cfg} {s s' : EspSystem.St} {a : EspSystem.Act} {ev : List (Nat × Executor.Ev)} (h : EspSystem.Step c s a ev s') {t : Nat} (h1 : a ≠ .hw t) (h2 : a ≠ .unhw t) : s'.pend t = s.pend t := by
  cases h with
  | hw h ht => exact EspSystem.upd_ne _ _ (fun e => h1 (by rw [e]))
  | unhw h ht => exact EspSystem.upd_ne _ _ (fun e => h2 (by rw [e]))
  | _ => rfl

theorem active_step {c : EspSystem.Cfg} {s s' : EspSystem.St} {a : EspSystem.Act} {ev : List (Nat × Executor.Ev)} (h : EspSystem.Step c s a ev s') {t : Nat} (ha : EspSystem.Active t s.m.stack) (hf : a = .code .finish → Esp32.top s.m.stack ≠ some t) :
    EspSystem.Active t s'.m.stack := by
  cases h with
  | irq h m' hp hbest hm => exact EspSystem.active_code hm ha (by simp)
  | code a m' hq hc hm hni hu hrun hf' => exact EspSystem.active_code hm ha (fun e => hf (by rw [e]))
  | _ => exact ha

theorem exOk_of {c : Cfg} {d : Nat} {ts : List Nat} {b : Executor.Act} (h : ∀ t a', b ≠ .callSpawn 0 t a' ∧ b ≠ .callWake 0 t) : Delay.exOk (dcfg c d ts) b = true := by
  cases b with
  | callSpawn j t a =>
    refine decide_eq_true (fun hj : j = 0 => ?_)
    subst hj; exact (h t a).1 rfl
  | callWake j t =>
    refine decide_eq_true (fun hj : j = 0 => ?_)
    subst hj; exact (h t 0).2 rfl
  | _ => rfl

theorem handler_active {c : Cfg} {s : St} (hh : inHandler c s) : EspSystem.Active c.th s.y.m.stack ∨ s.inl = true := by
  rcases hh.2 with ⟨prev, i, rest, hst⟩ | h
  · exact .inl ⟨.body c.th prev i, by rw [hst]; exact List.mem_cons_self, rfl⟩
  · exact .inr h

/-- nothing is started while the running code is inside `pend_interrupt` -/
theorem inl_off {c : Cfg} {t0 : Nat} {s : St} (hi : Inv c t0 s) (h : s.inl = true) : s.y.m.off = true := by
  obtain ⟨rest, hst⟩ := hi.inl h
  rw [hi.y.m.off, hst]; rfl

/-- the stack does not change while the running code is inside `pend_interrupt` -/
theorem inl_stack {c : Cfg} {t0 : Nat} {s : St} (hi : Inv c t0 s) (h : s.inl = true) {a : EspSystem.Act} {ev : List (Nat × Executor.Ev)} {y' : EspSystem.St} (hs : EspSystem.Step c.sys s.y a ev y') (ho : a.own = false) : y'.m = s.y.m ∧ ∀ t, a ≠ .irq t := by
  cases hs with
  | irq t m' hp => have := hp.2.2.1; rw [inl_off hi h] at this; cases this
  | hw => exact ⟨rfl, by simp⟩
  | unhw => exact ⟨rfl, by simp⟩
  | _ => cases ho

theorem inv_step {c : Cfg} {t0 : Nat} (hwf : WellFormed c) {s s' : St} {a : Act} {ev : List (Nat × Executor.Ev)} (hi : Inv c t0 s) (h : Step c s a ev s') : Inv c t0 s' := by
  have hline : ∀ y q, (sync c y q).pend c.th = q.irq := fun y q => by simp [sync]
  have hact' : ∀ (hh : inHandler c s), EspSystem.Active c.th s.y.m.stack ∨ s.inl = true := fun hh => handler_active hh
  cases h with
  | clock m o p q e hs =>
    refine ⟨inv_sync hi.y q, hline _ _, ?_, hi.inl, ?_, ?_, hi.calld⟩
    · intro hn
      refine hi.hact (fun e => hn ?_)
      cases TimerQueue.tr_of_step hs; exact e
    · intro d ts hd
      exact Delay.inv_tq (c := dcfg c d ts) hwf.width (hi.del d ts hd) rfl hs
    · intro i d ts hd ho hp
      rw [hd_frame hs rfl] at hp
      exact hi.busy i d ts hd ho hp
  | sys a ev y' hs h1 h2 h3 hin hop hu hf =>
    refine ⟨EspSystem.inv_step hwf.hw hi.y hs, (pend_step hs h1 h2).trans hi.line, fun hn => ?_, fun h => ?_, ?_, ?_, hi.calld⟩
    · rcases hi.hact hn with h | h
      · exact .inl (active_step hs h (fun e ht => hn (hf e ht)))
      · exact .inr h
    · have ho : a.own = false := by
        cases e : a.own
        · rfl
        · have h' : s.inl = true := h
          rw [hin e] at h'; cases h'
      rw [(inl_stack hi h hs ho).1]; exact hi.inl h
    · intro d ts hd
      rcases ex_step hwf.hw hi.y hs hd with he | ⟨b, evd, h4, h5, h6, -⟩
      · have := delay_weaken (hi.del d ts hd) (w := waitsEx c.own s.waits ev) (fun i hw => waitsEx_le i hw)
        simp only [dst] at this ⊢
        rw [he]; exact this
      · have := Delay.inv_ex (hi.del d ts hd) (exOk_of h6) h4
        subst h5
        rw [waitsEx_map]
        exact this
    · intro i d ts hd ho hp
      obtain ⟨rest, hb⟩ := hi.busy i d ts hd ho hp
      rcases ex_step hwf.hw hi.y hs hd with he | ⟨b, evd, h4, h5, h6, h7⟩
      · exact ⟨rest, by simp only [he]; exact hb⟩
      · rcases h7 with h7 | h7 | ⟨h7, h8⟩
        · exact ⟨rest, by simp only [(EspSystem.call_d h4 h7).1]; exact hb⟩
        · rw [h7] at hb; cases hb
        · rcases hop h8 i ⟨d, ts, rest, hd, ho, h7, hb⟩ with h9 | h9 <;> rcases hp with ⟨wk, hp⟩ | hp <;> simp only [h9] at hp <;> cases hp
  | enter y' q e hs hq =>
    have hex : y'.ex = s.y.ex := by cases hs; rfl
    have hst : y'.m.stack = .enter c.th s.y.m.thr :: s.y.m.stack := by
      cases hs with
      | irq _ m' hp hbest hm => exact EspSystem.irq_stack hm
    have hnin : s.inl = true → False := by
      intro h
      cases hs with
      | irq _ m' hp => have := hp.2.2.1; rw [inl_off hi h] at this; cases this
    refine ⟨inv_sync (EspSystem.inv_step hwf.hw hi.y hs) q, hline _ _, fun _ => .inl ⟨.enter c.th s.y.m.thr, ?_, rfl⟩, fun h => (hnin h).elim, ?_, ?_, hi.calld⟩
    · show _ ∈ y'.m.stack
      rw [hst]; exact List.mem_cons_self
    · intro d ts hd
      have := Delay.inv_tq (c := dcfg c d ts) hwf.width (hi.del d ts hd) rfl hq
      simp only [dst, sync] at this ⊢
      rw [hex]; exact this
    · intro i d ts hd ho hp
      rw [hd_frame hq rfl] at hp
      simp only [sync, hex]
      exact hi.busy i d ts hd ho hp
  | hgo q e hh hc hw hq =>
    refine ⟨inv_sync hi.y q, hline _ _, fun _ => hact' hh, hi.inl, ?_, ?_, hi.calld⟩
    · intro d ts hd
      refine Delay.inv_tq (c := dcfg c d ts) hwf.width (hi.del d ts hd) ?_ hq
      simp only [Delay.tqOk, Delay.St.wakes, dst, Bool.not_eq_true']
      split
      · rename_i wk hwk
        simp only [decide_eq_false_iff_not]
        exact fun hm => hw wk hwk ⟨d, ts, hd, hm⟩
      · rfl
    · intro i d ts hd ho hp
      rw [hd_frame hq rfl] at hp
      exact hi.busy i d ts hd ho hp
  | arm x q e hh hq =>
    refine ⟨inv_sync hi.y q, hline _ _, fun _ => hact' hh, hi.inl, ?_, ?_, hi.calld⟩
    · intro d ts hd
      exact Delay.inv_tq (c := dcfg c d ts) hwf.width (hi.del d ts hd) rfl hq
    · intro i d ts hd ho hp
      rw [hd_frame hq rfl] at hp
      exact hi.busy i d ts hd ho hp
  | hcall d ts wk e' ev hh hc hw hd hwk hs =>
    refine ⟨inv_caller hi.y hs rfl, hi.line, hi.hact, hi.inl, ?_, ?_, fun _ h => by cases h; exact ⟨ts, hd⟩⟩
    · intro d' ts' hd'
      by_cases e : d' = d
      · subst e
        rw [hd] at hd'; cases hd'
        have hstep : Delay.step (dcfg c d' ts) (dst s d') .hcall = some ({ dst s d' with ex := e', inCall := true }, ev.map .ex) := by
          simp only [Delay.step, dst, hw, hc]
          have hs' : Executor.step (dcfg c d' ts).xc (s.y.ex d') (.callWake (dcfg c d' ts).hid wk) = some (e', ev) := hs
          simp [hs']
        have := Delay.inv_step (c := dcfg c d' ts) hwf.width (hi.del d' ts hd) hstep
        simpa [dst] using this
      · have := hi.del d' ts' hd'
        simpa [dst, EspSystem.upd_ne _ _ e, hc, Ne.symm e] using this
    · intro i d' ts' hd' ho hp
      obtain ⟨rest, hb⟩ := hi.busy i d' ts' hd' ho hp
      by_cases e : d' = d
      · subst e; exact ⟨rest, by simp only [EspSystem.upd_same, (EspSystem.call_d hs rfl).1]; exact hb⟩
      · exact ⟨rest, by simp only [EspSystem.upd_ne _ _ e]; exact hb⟩
  | hacc d ts e' ev hh hc hd hs =>
    refine ⟨inv_caller hi.y hs rfl, hi.line, hi.hact, hi.inl, ?_, ?_, hi.calld⟩
    · intro d' ts' hd'
      by_cases e : d' = d
      · subst e
        rw [hd] at hd'; cases hd'
        have := Delay.inv_ex (hi.del d' ts hd) (a := .thr 0) rfl hs
        rw [waitsEx_map]
        simp only [dst, EspSystem.upd_same] at this ⊢
        exact this
      · have := delay_weaken (hi.del d' ts' hd') (w := waitsEx c.own s.waits (ev.map (d, ·))) (fun i hw => waitsEx_le i hw)
        simpa [dst, EspSystem.upd_ne _ _ e] using this
    · intro i d' ts' hd' ho hp
      obtain ⟨rest, hb⟩ := hi.busy i d' ts' hd' ho hp
      by_cases e : d' = d
      · subst e; exact ⟨rest, by simp only [EspSystem.upd_same, (EspSystem.call_d hs rfl).1]; exact hb⟩
      · exact ⟨rest, by simp only [EspSystem.upd_ne _ _ e]; exact hb⟩
  | hret d q e hh hc hidle hq =>
    refine ⟨inv_sync hi.y q, hline _ _, fun _ => hact' hh, hi.inl, ?_, ?_, by simp⟩
    · intro d' ts' hd'
      by_cases e1 : d' = d
      · subst e1
        have hstep : Delay.step (dcfg c d' ts') (dst s d') .hret = some ({ dst s d' with tq := q, inCall := false }, e.map .tq) := by
          have hq' : TimerQueue.step (dcfg c d' ts').tb s.tq .hgo = some (q, e) := hq
          have hid' : (s.y.ex d').pc (dcfg c d' ts').hid = .idle := hidle
          simp [Delay.step, dst, hc, hid', hq']
        have := Delay.inv_step (c := dcfg c d' ts') hwf.width (hi.del d' ts' hd') hstep
        simp only [dst, sync] at this ⊢
        simpa using this
      · have htok : Delay.tqOk (dcfg c d' ts') (dst s d') .hgo = true := by
          simp only [Delay.tqOk, Delay.St.wakes, dst, Bool.not_eq_true']
          split
          · rename_i wk hwk
            simp only [decide_eq_false_iff_not]
            intro hm
            obtain ⟨ts, hd⟩ := hi.calld d hc
            obtain ⟨wk', h1, h2⟩ := (hi.del d ts hd).call (by simp [dst, hc])
            rw [show s.tq.h = .h2 wk' from h1] at hwk
            cases hwk
            exact e1 (hwf.uniq _ _ _ _ _ hd' hd hm h2)
          · rfl
        have := Delay.inv_tq (c := dcfg c d' ts') hwf.width (hi.del d' ts' hd') htok hq
        simp only [dst, sync, hc, Option.some.injEq, Ne.symm e1, decide_false] at this ⊢
        simpa [Delay.waitsTq] using this
    · intro i d ts hd ho hp
      rw [hd_frame hq rfl] at hp
      exact hi.busy i d ts hd ho hp
  | op a i q e hqu hc huc hth hin hnp hop hown hwk hst hq =>
    obtain ⟨hf1, hf2⟩ := op_frame hq hop
    refine ⟨inv_sync hi.y q, hline _ _, fun hn => hi.hact (by rw [← hf1]; exact hn), hi.inl, ?_, ?_, hi.calld⟩
    · intro d ts hd
      refine Delay.inv_tq (c := dcfg c d ts) hwf.width (hi.del d ts hd) ?_ hq
      cases a <;> simp only [Delay.tqOk] <;> try cases hop
      rename_i wk
      have := hwk _ _ rfl
      subst this
      simp only [dcfg, decide_true, Bool.true_and, Bool.or_eq_true]
      by_cases hm : c.own i ∈ ts
      · left
        obtain ⟨d', ts', r, h1, h2, h3, h4⟩ := hown ⟨d, ts, hd, hm⟩
        obtain rfl := hwf.uniq _ _ _ _ _ hd h1 hm h2
        simp only [dst, h4, Executor.Dpc.isBody, decide_true]
      · exact .inr (decide_eq_true hm)
    · intro j d ts hd ho hp
      by_cases hj : j = i
      · subst hj
        obtain ⟨d', ts', r, h1, h2, h3, h4⟩ := hown ⟨d, ts, hd, ho⟩
        obtain rfl := hwf.uniq _ _ _ _ _ hd h1 ho h2
        exact ⟨r, h4⟩
      · rw [hf2 j hj] at hp
        exact hi.busy j d ts hd ho hp
  | pend i y1 y2 q1 q e1 e2 hth hin hoff hown h1 h2 hq1 hq2 =>
    have hm1 : y1.m.stack = .cs0 none false :: s.y.m.stack ∧ y1.ex = s.y.ex := by
      cases h1 with
      | code _ m' _ _ hm => cases hm; exact ⟨by simp [hoff], rfl⟩
    have hm2 : y2.m.stack = .cs none false :: s.y.m.stack ∧ y2.ex = s.y.ex := by
      cases h2 with
      | code _ m' _ _ hm =>
        cases hm with
        | raise r cur rest h => rw [hm1.1] at h; cases h
        | raiseCs r m rest h => rw [hm1.1] at h; cases h; exact ⟨rfl, hm1.2⟩
    have hi2 := EspSystem.inv_step hwf.hw (EspSystem.inv_step hwf.hw hi.y h1) h2
    refine ⟨inv_sync hi2 q, hline _ _, fun _ => .inr rfl, fun _ => ⟨_, hm2.1⟩, ?_, ?_, hi.calld⟩
    · intro d ts hd
      have k1 := Delay.inv_tq (c := dcfg c d ts) hwf.width (hi.del d ts hd) rfl hq1
      have k2 := Delay.inv_tq (c := dcfg c d ts) hwf.width k1 rfl hq2
      simp only [dst, sync, hm2.2] at k2 ⊢
      exact k2
    · intro j d ts hd ho hp
      simp only [sync, hm2.2]
      rw [hd_frame hq2 rfl] at hp
      by_cases hj : j = i
      · subst hj
        obtain ⟨d', ts', r, g1, g2, g3, g4⟩ := hown ⟨d, ts, hd, ho⟩
        obtain rfl := hwf.uniq _ _ _ _ _ hd g1 ho g2
        exact ⟨r, g4⟩
      · rw [(op_frame hq1 rfl).2 j hj] at hp
        exact hi.busy j d ts hd ho hp
  | pendRet y' hin hidle hs =>
    have hex : y'.ex = s.y.ex ∧ y'.pend = s.y.pend := by cases hs; exact ⟨rfl, rfl⟩
    refine ⟨EspSystem.inv_step hwf.hw hi.y hs, by simp only [hex.2]; exact hi.line, fun hn => absurd hidle hn, fun h => (by cases h), ?_, ?_, hi.calld⟩
    · intro d ts hd
      have := hi.del d ts hd
      simp only [dst, hex.1] at this ⊢
      exact this
    · intro j d ts hd ho hp
      simp only [hex.1]
      exact hi.busy j d ts hd ho hp

theorem inv_exec {c : Cfg} {t0 : Nat} (hwf : WellFormed c) {s s' : St} {as : List Act} {tr : List (Nat × Executor.Ev)} (hi : Inv c t0 s) (h : Exec c s as tr s') : Inv c t0 s' := by
  induction h with
  | nil => exact hi
  | snoc h hs ih => exact inv_step hwf ih hs

theorem inv_start {c : Cfg} {t0 : Nat} (hwf : WellFormed c) {s : St} (h : Start c t0 s) : Inv c t0 s := by
  have hs : EspSystem.Start c.sys t0 s.y := ⟨h.m, fun d ts hd => by
    obtain ⟨acts, tr, h1, h2⟩ := h.calls d ts hd
    exact ⟨acts, tr, fun a ha => (h1 a ha).1, h2⟩, h.over⟩
  refine ⟨EspSystem.inv_start hwf.thread hs, by rw [h.line, h.tq]; rfl, fun hn => absurd (by rw [h.tq]; rfl) hn, fun hn => (by rw [h.inl] at hn; cases hn), ?_, ?_, fun d hd => by rw [h.call] at hd; cases hd⟩
  · intro d ts hd
    obtain ⟨acts, tr, h1, h2⟩ := h.calls d ts hd
    have := delay_calls (c := dcfg c d ts) (Delay.inv_init _) (fun _ => rfl) (fun a ha => exOk_of (h1 a ha).2) h2
    have hw : s.waits = fun _ => false := funext h.waits
    simpa [dst, h.tq, h.call, hw, Delay.init, dcfg] using this
  · intro i d ts hd ho hp
    rw [h.tq] at hp
    rcases hp with ⟨wk, hp⟩ | hp <;> cases hp

/-- the heart: a task that waits for an overdue delay is not forgotten by the interrupt controller, unless the running code is executing the timer handler inside `pend_interrupt` -/
theorem overdue_urgent {c : Cfg} {t0 : Nat} (hwf : WellFormed c) {s : St} (hi : Inv c t0 s) {i d : Nat} {ts : List Nat} (hd : c.sys.tasks d = some ts) (ho : c.own i ∈ ts) (hp : 1 ≤ c.sys.hw.prio d) (hw : s.waits i = true) (hdue : Overdue c i s)
    (hh : ¬ HeldUp c (c.sys.hw.prio d) s) : EspSystem.Urgent c.sys (c.sys.hw.prio d) s.y ∨ (s.inl = true ∧ s.tq.h ≠ .idle) := by
  have hpt : c.sys.hw.prio d ≤ c.sys.hw.prio c.th := by rw [hwf.prioTh]; exact hwf.hw.prio d
  have hD := hi.del d ts hd
  -- the dispatcher is active
  have hact : (s.y.ex d).d ≠ .idle → EspSystem.Urgent c.sys (c.sys.hw.prio d) s.y := fun hn => ⟨d, Nat.le_refl _, .inr (hi.y.act d ts hd hp hn)⟩
  -- the timer handler is active
  by_cases hub : (s.y.ex d).ub = true
  · exact .inl (hact (hi.y.ub d ts hd hub))
  have hub : (s.y.ex d).ub = false := by simpa using hub
  by_cases hidle : s.tq.h = .idle
  · refine .inl ?_
    rcases hD.main i hw ho hub with ⟨wk, h⟩ | ⟨e, he, rfl⟩ | ⟨h, -⟩ | h | h
    · obtain ⟨rest, hb⟩ := hi.busy i d ts hd ho (.inl ⟨wk, h⟩)
      exact hact (by rw [hb]; simp)
    · obtain ⟨tr, htq⟩ := hD.tq
      have hinv := (TimerQueue.reach_inv hwf.width htq).1
      have ht : e.time + c.tb.sl ≤ s.tq.now := by
        have := hinv.time e he
        simp only [dst] at this
        rw [this]; exact hdue
      rcases TimerQueue.C28_overdue_pending hwf.width htq hidle he ht with h | ⟨j, h⟩
      · refine ⟨c.th, hpt, .inl ?_⟩
        simp only [EspSystem.pended, hwf.th, hi.line]
        exact h
      · -- somebody is about to pend: not of lower priority, so active
        apply Classical.byContradiction
        intro hn
        refine hh ⟨j, h, fun d' ts' hd' ho' => Nat.lt_of_not_le fun hle => hn ⟨d', hle, .inr ?_⟩⟩
        obtain ⟨rest, hb⟩ := hi.busy j d' ts' hd' ho' (.inr h)
        exact hi.y.act d' ts' hd' (by omega) (by rw [hb]; simp)
    · rw [show s.tq.h = .h2 _ from h] at hidle; cases hidle
    · have : (dst s d).ex.pc (dcfg c d ts).hid ≠ .idle := by obtain ⟨-, ⟨a, h⟩ | h | h | ⟨h, -⟩⟩ := h <;> simp [h]
      obtain ⟨wk, h, -⟩ := hD.call (hD.hid this)
      rw [show s.tq.h = .h2 _ from h] at hidle; cases hidle
    · exact EspSystem.ready_urgent hi.y hd hp (Executor.due_ready h hub)
  · rcases hi.hact hidle with h | h
    · exact .inl ⟨c.th, hpt, .inr h⟩
    · exact .inr ⟨h, hidle⟩

theorem step_quiet {c : Cfg} {s s' : St} {a : Act} {ev : List (Nat × Executor.Ev)} (h : Step c s a ev s') (ho : a.own = true) : EspSystem.quiet c.sys s.y := by
  cases h with
  | clock => cases ho
  | sys a ev y' hs => exact EspSystem.own_quiet hs ho
  | enter => cases ho
  | hgo q e hh => exact hh.1
  | arm x q e hh => exact hh.1
  | hcall d ts wk e' ev hh => exact hh.1
  | hacc d ts e' ev hh => exact hh.1
  | hret d q e hh => exact hh.1
  | op a i q e hqu => exact hqu
  | pend i y1 y2 q1 q e1 e2 hth hin hoff hown h1 => exact EspSystem.own_quiet h1 rfl
  | pendRet y' hin hidle hs => exact EspSystem.own_quiet hs rfl

/-- one step, when a task of priority `q` waits for an overdue delay: no critical section that blocks it is entered, and nothing of lower priority is started -/
theorem overdue_step {c : Cfg} {t0 : Nat} (hwf : WellFormed c) (ht0 : t0 ≤ 1) {q : Nat} (hq : 1 ≤ q) {s s' : St} {a : Act} {ev : List (Nat × Executor.Ev)} (hi : Inv c t0 s) (hu : EspSystem.Urgent c.sys q s.y ∨ (s.inl = true ∧ s.tq.h ≠ .idle)) (hs : Step c s a ev s') {l2 : List Esp32.Rec}
    (ho : Esp32.OldBlock c.sys.hw q l2 s.y.m.stack) : Esp32.OldBlock c.sys.hw q l2 s'.y.m.stack ∧ ∀ h, a.starts c = some h → q ≤ c.sys.hw.prio h := by
  rcases hu with hu | ⟨hin, hn⟩
  · cases hs with
    | sys a ev y' hs =>
      obtain ⟨k1, k2⟩ := EspSystem.urgent_step hwf.hw ht0 hq hi.y hu hs ho
      exact ⟨k1, fun h e => k2 h (by cases a <;> simp [Act.starts] at e <;> rw [e])⟩
    | enter y' q' e hs =>
      obtain ⟨k1, k2⟩ := EspSystem.urgent_step hwf.hw ht0 hq hi.y hu hs ho
      exact ⟨k1, fun h e => k2 h (by simp only [Act.starts, Option.some.injEq] at e; rw [e])⟩
    | pend i y1 y2 q1 q' e1 e2 hth hin hoff hown h1 h2 =>
      obtain ⟨k1, -⟩ := EspSystem.urgent_step hwf.hw ht0 hq hi.y hu h1 ho
      have hu1 : EspSystem.Urgent c.sys q y1 := by
        obtain ⟨h, hle, hpa⟩ := hu
        refine ⟨h, hle, ?_⟩
        cases h1 with
        | code _ m' _ _ hm =>
          rcases hpa with hp | ha
          · exact .inl hp
          · exact .inr (EspSystem.active_code hm ha (by simp))
      obtain ⟨k2, -⟩ := EspSystem.urgent_step hwf.hw ht0 hq (EspSystem.inv_step hwf.hw hi.y h1) hu1 h2 k1
      exact ⟨k2, fun h e => by cases e⟩
    | pendRet y' hin hidle hs =>
      obtain ⟨k1, -⟩ := EspSystem.urgent_step hwf.hw ht0 hq hi.y hu hs ho
      exact ⟨k1, fun h e => by cases e⟩
    | _ => exact ⟨ho, fun h e => by cases e⟩
  · cases hs with
    | sys a ev y' hs h1 h2 h3 hnin =>
      have hown : a.own = false := by
        cases e : a.own
        · rfl
        · rw [hnin e] at hin; cases hin
      obtain ⟨k1, k2⟩ := inl_stack hi hin hs hown
      refine ⟨by simp only [k1]; exact ho, fun h e => ?_⟩
      cases a <;> simp [Act.starts] at e
      exact absurd rfl (k2 _)
    | enter y' q' e hs => exact absurd rfl ((inl_stack hi hin hs rfl).2 _)
    | op a i q' e hqu hc huc hth hnin => rw [hin] at hnin; cases hnin
    | pend i y1 y2 q1 q' e1 e2 hth hnin => rw [hin] at hnin; cases hnin
    | pendRet y' hin' hidle => exact absurd hidle hn
    | _ => exact ⟨ho, fun h e => by cases e⟩

/-- **C106** In a running application with a monotonic, let `s2` be a moment at which task `own i` (priority `prio d ≥ 1`) waits for the delay `i`, and the delay is overdue; let it still wait in all states up to `s3`; and assume that, in these states, no code of lower priority than `d` is preempted between inserting its delay as
the earliest one and calling `pend_interrupt` (`HeldUp`). Then from `s2` to `s3` and in the next step no code of lower priority than `d` runs, except inside a critical section that was entered before `s2` and that blocks `d` (which includes the one of `pend_interrupt`); nothing of lower priority is started. -/
theorem C106_expired_runs_first_partial {c : Cfg} {t0 : Nat} (hwf : WellFormed c) (ht0 : t0 ≤ 1) {st s2 s3 : St} {as0 as : List Act} {tr0 : List (Nat × Executor.Ev)} {i d : Nat} {ts : List Nat} (hst : Start c t0 st) (hx : Exec c st as0 tr0 s2)
    (hd : c.sys.tasks d = some ts) (ho : c.own i ∈ ts) (hp : 1 ≤ c.sys.hw.prio d) (hw : While c (fun s => s.waits i = true ∧ Overdue c i s ∧ ¬ HeldUp c (c.sys.hw.prio d) s) s2 as s3) :
    (∀ a ev s4 cur, Step c s3 a ev s4 → a.own = true → Esp32.top s3.y.m.stack = some cur → c.sys.hw.prio d ≤ c.sys.hw.prio cur ∨
      ∃ x below, Esp32.BlockedAt c.sys.hw (c.sys.hw.prio d) x below ∧ (x :: below) <:+ s2.y.m.stack ∧ (x :: below) <:+ s3.y.m.stack) ∧
    (∀ a h, a ∈ as → a.starts c = some h → c.sys.hw.prio d ≤ c.sys.hw.prio h) := by
  have hi2 := inv_exec hwf (inv_start hwf hst) hx
  have key : Inv c t0 s3 ∧ (s3.waits i = true ∧ Overdue c i s3 ∧ ¬ HeldUp c (c.sys.hw.prio d) s3) ∧ Esp32.OldBlock c.sys.hw (c.sys.hw.prio d) s2.y.m.stack s3.y.m.stack ∧ (∀ a h, a ∈ as → a.starts c = some h → c.sys.hw.prio d ≤ c.sys.hw.prio h) := by
    clear hx
    induction hw with
    | nil h => exact ⟨hi2, h, Esp32.oldBlock_refl _ _ _, by simp⟩
    | @snoc w1 w2 bs b ev h hs hP ih =>
      obtain ⟨h1, ⟨h2, h3, h4⟩, h5, h6⟩ := ih
      have hstep := overdue_step hwf ht0 hp h1 (overdue_urgent hwf h1 hd ho hp h2 h3 h4) hs h5
      refine ⟨inv_step hwf h1 hs, hP, hstep.1, ?_⟩
      intro a' h' hm he
      rcases List.mem_append.1 hm with hm | hm
      · exact h6 a' h' hm he
      · rw [List.mem_singleton.1 hm] at he; exact hstep.2 h' he
  obtain ⟨h1, ⟨h2, h3, h4⟩, h5, h6⟩ := key
  refine ⟨?_, h6⟩
  intro a ev s4 cur hs hown htop
  rcases Nat.lt_or_ge (c.sys.hw.prio cur) (c.sys.hw.prio d) with hlt | hge
  · right
    refine h5 (Classical.byContradiction fun hb => ?_)
    rcases overdue_urgent hwf h1 hd ho hp h2 h3 h4 with hu | ⟨hin, -⟩
    · obtain ⟨h, g1, -⟩ := EspSystem.urgent_takeable hwf.hw h1.y hp hu (Esp32.admitted_of_free ht0 h1.y.m htop hlt hb)
      exact step_quiet hs hown h g1
    · obtain ⟨rest, hst⟩ := h1.inl hin
      rw [hst] at hb htop
      exact hb ⟨_, rest, List.suffix_refl _, trivial, cur, htop, hlt⟩
  · exact .inl hge

/-- **C106** (at once) While the delay of a task of priority `prio d` is overdue, the task still waits, code of lower priority is at the processor and no critical section blocks `d` (and nothing is `HeldUp`): the running code makes no step; a handler at least as urgent is started, and this step is possible. -/
theorem C106_taken_at_once_partial {c : Cfg} {t0 : Nat} (hwf : WellFormed c) (ht0 : t0 ≤ 1) {st s : St} {as : List Act} {tr : List (Nat × Executor.Ev)} {i d cur : Nat} {ts : List Nat} (hst : Start c t0 st) (hx : Exec c st as tr s)
    (hd : c.sys.tasks d = some ts) (ho : c.own i ∈ ts) (hp : 1 ≤ c.sys.hw.prio d) (hw : s.waits i = true) (hdue : Overdue c i s) (hh : ¬ HeldUp c (c.sys.hw.prio d) s)
    (ht : Esp32.top s.y.m.stack = some cur) (hlt : c.sys.hw.prio cur < c.sys.hw.prio d) (hb : ¬ Esp32.Blocked c.sys.hw (c.sys.hw.prio d) s.y.m.stack) :
    (∃ a h s', a.starts c = some h ∧ c.sys.hw.prio d ≤ c.sys.hw.prio h ∧ Step c s a [] s') ∧ ∀ a ev s', Step c s a ev s' → a.own = true → False := by
  have hi := inv_exec hwf (inv_start hwf hst) hx
  rcases overdue_urgent hwf hi hd ho hp hw hdue hh with hu | ⟨hin, -⟩
  · obtain ⟨h, h1, h2⟩ := EspSystem.urgent_takeable hwf.hw hi.y hp hu (Esp32.admitted_of_free ht0 hi.y.m ht hlt hb)
    refine ⟨?_, fun a ev s' hs hown => step_quiet hs hown h h1⟩
    obtain ⟨h', g1, g2, g3⟩ := EspSystem.best_exists hwf.hw h1
    have hs : EspSystem.Step c.sys s.y (.irq h') [] _ := .irq h' _ g1 g3 (.irq h' g1.1 g1.2.2.1 g1.2.2.2)
    by_cases e : h' = c.th
    · subst e
      have hidle : s.tq.h = .idle := Classical.byContradiction fun hn => by
        rcases hi.hact hn with ha | hin
        · exact EspSystem.not_active hwf.hw hi.y.m g1.1 g1.2.2 ha
        · have := g1.2.2.1; rw [inl_off hi hin] at this; cases this
      have hirq : s.tq.irq = true := by
        rw [← hi.line]
        simpa [EspSystem.pended, hwf.th] using g1.2.1
      exact ⟨.enter, c.th, _, rfl, Nat.le_trans h2 g2, .enter _ _ [] hs (by simp only [TimerQueue.step, hidle, hirq]; rfl)⟩
    · exact ⟨.sys (.irq h'), h', _, rfl, Nat.le_trans h2 g2, .sys (.irq h') [] _ hs (by simp) (by simp) (by simpa using e) (by simp [EspSystem.Act.own]) (by simp [EspSystem.Act.own]) (by simp [userAct]) (by simp)⟩
  · obtain ⟨rest, hst'⟩ := hi.inl hin
    rw [hst'] at hb ht
    exact absurd ⟨_, rest, List.suffix_refl _, trivial, cur, ht, hlt⟩ hb

/-- **C106** (`pend_interrupt`) The timer handler is never entered twice: when user code that has inserted its delay as the earliest one calls `pend_interrupt` (interrupts enabled), the timer handler is not running, and the call is possible. -/
theorem C106_pend_possible {c : Cfg} {t0 : Nat} (hwf : WellFormed c) {st s : St} {as : List Act} {tr : List (Nat × Executor.Ev)} (hst : Start c t0 st) (hx : Exec c st as tr s) {i : Nat} (hpc : s.tq.pc i = .p2) (hqu : EspSystem.quiet c.sys s.y) (hc : EspSystem.noCall s.y) (huc : EspSystem.userCode c.sys s.y)
    (hth : Esp32.top s.y.m.stack ≠ some c.th) (hin : s.inl = false) (hoff : s.y.m.off = false) (hown : isTask c (c.own i) → runsTask c s (c.own i)) : s.tq.h = .idle ∧ ∃ s', Step c s (.pend i) [] s' := by
  have hi := inv_exec hwf (inv_start hwf hst) hx
  have hidle : s.tq.h = .idle := Classical.byContradiction fun hn => by
    rcases hi.hact hn with ⟨y, hy, hr⟩ | h
    · obtain ⟨t, ht⟩ := Esp32.top_of_inCode hi.y.m.ok huc.1
      have := (Esp32.level_running hwf.hw.ceil (by rw [hwf.prioTh]; decide) hr hi.y.m.ok hy).2 t ht
      have hne : t ≠ c.th := fun e => hth (by rw [ht, e])
      have := hwf.prio t hne
      rw [hwf.prioTh] at *
      omega
    · rw [hin] at h; cases h
  refine ⟨hidle, ?_⟩
  have h1 : EspSystem.Step c.sys s.y (.code .userCs) [] { s.y with m := { s.y.m with stack := .cs0 none s.y.m.off :: s.y.m.stack } } :=
    .code .userCs _ hqu hc (.userCs huc.1) (by simp) (fun _ => huc) (by simp) (by simp)
  have h2 : EspSystem.Step c.sys { s.y with m := { s.y.m with stack := .cs0 none s.y.m.off :: s.y.m.stack } } (.code .raise) [] { s.y with m := { s.y.m with stack := .cs none s.y.m.off :: s.y.m.stack, off := true } } :=
    .code .raise _ hqu hc (.raiseCs none s.y.m.off s.y.m.stack rfl) (by simp) (by simp) (by simp) (by simp)
  have hq1 : TimerQueue.step c.tb s.tq (.pend i) = some ({ s.tq with pend := true, pc := TimerQueue.set s.tq.pc i .alive }, []) := by simp only [TimerQueue.step, hpc]
  have hq2 : TimerQueue.step c.tb { s.tq with pend := true, pc := TimerQueue.set s.tq.pc i .alive } .start = some ({ s.tq with pend := false, pc := TimerQueue.set s.tq.pc i .alive, h := .h0 }, []) := by
    simp [TimerQueue.step, hidle, TimerQueue.St.irq]
  exact ⟨_, .pend i _ _ _ _ [] [] hth hin hoff hown h1 h2 hq1 hq2⟩

end Verif.EspTimed
