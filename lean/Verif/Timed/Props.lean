import Verif.Timed.Model

/-!
# C83: a task whose delay has expired runs before anything of lower priority
-/

namespace Verif.Timed

open Verif

/-! ## Specification -/

/-- delay `i` is overdue: its instant (plus the slack of the hardware compare, 0 for most timers) is not in the future -/
def Overdue (c : Cfg) (i : Nat) (s : St) : Prop := s.tq.inst i + c.tb.sl ≤ s.tq.now

/-- Some code of lower priority than `q` is preempted after it has inserted its delay as the new earliest one, and before it has pended the timer interrupt (`timer_queue.rs:241-244`). -/
def HeldUp (c : Cfg) (q : Nat) (s : St) : Prop := ∃ j, s.tq.pc j = .p2 ∧ ∀ d ts, c.sys.tasks d = some ts → c.own j ∈ ts → c.sys.srp.prio d < q

/-- executions in all states of which `P` holds -/
inductive While (c : Cfg) (P : St → Prop) : St → List Act → St → Prop
  | nil {s} (h : P s) : While c P s [] s
  | snoc {s s1 s2 as a ev} (h : While c P s as s1) (hs : Step c s1 a ev s2) (hp : P s2) : While c P s (as ++ [a]) s2

/-! ## Proofs -/

def dcfg (c : Cfg) (d : Nat) (ts : List Nat) : Delay.Cfg := { tb := c.tb, xc := c.sys.exec d ts, own := c.own, hid := 0 }
def dst (s : St) (d : Nat) : Delay.St := { tq := s.tq, ex := s.y.ex d, inCall := decide (s.call = some d), waits := s.waits }

structure Inv (c : Cfg) (s : St) : Prop where
  y : System.Inv c.sys s.y
  line : s.y.pend c.th = s.tq.irq
  hact : s.tq.h ≠ .idle → System.Active c.th s.y.m.stack
  del : ∀ d ts, c.sys.tasks d = some ts → Delay.Inv (dcfg c d ts) (dst s d)
  busy : ∀ i d ts, c.sys.tasks d = some ts → c.own i ∈ ts → ((∃ wk, s.tq.pc i = .p1 wk) ∨ s.tq.pc i = .p2) → ∃ rest, (s.y.ex d).d = .body (c.own i) rest
  calld : ∀ d, s.call = some d → ∃ ts, c.sys.tasks d = some ts

theorem delay_weaken {c : Delay.Cfg} {s : Delay.St} (hi : Delay.Inv c s) {w : Nat → Bool} (h : ∀ i, w i = true → s.waits i = true) : Delay.Inv c { s with waits := w } :=
  ⟨hi.tq, hi.ex, hi.wkq, hi.wkp, hi.call, hi.hid, fun i hw => hi.pc i (h i hw), fun i hw => hi.run i (h i hw), fun i hw => hi.main i (h i hw)⟩

theorem waitsEx_le {own : Nat → Nat} {w : Nat → Bool} {ev : List (Nat × Executor.Ev)} (i : Nat) (h : waitsEx own w ev i = true) : w i = true := by
  simp only [waitsEx, Bool.and_eq_true] at h; exact h.1

theorem waitsEx_map (own : Nat → Nat) (w : Nat → Bool) (d : Nat) (ev : List Executor.Ev) : waitsEx own w (ev.map (d, ·)) = Delay.waitsEx own w ev := by
  funext i
  simp only [waitsEx, Delay.waitsEx]
  congr 1
  rw [decide_eq_decide]
  constructor
  · intro h
    exact ⟨fun hm => (h _ (List.mem_map_of_mem hm)).1 rfl, fun hm => (h _ (List.mem_map_of_mem hm)).2 rfl⟩
  · rintro ⟨h1, h2⟩ e he
    obtain ⟨x, hx, rfl⟩ := List.mem_map.1 he
    exact ⟨fun hc => h1 (hc ▸ hx), fun hc => h2 (hc ▸ hx)⟩

theorem waitsEx_nil (own : Nat → Nat) (w : Nat → Bool) : waitsEx own w [] = w := by
  funext i; simp [waitsEx]

theorem inv_sync {c : Cfg} {y : System.St} (hi : System.Inv c.sys y) (q : TimerQueue.St) : System.Inv c.sys (sync c y q) := ⟨hi.m, hi.act, hi.ub⟩

theorem inv_caller {c : System.Cfg} {s : System.St} (hi : System.Inv c s) {d : Nat} {ts : List Nat} {a : Executor.Act} {e' : Executor.St} {ev : List Executor.Ev} (hs : Executor.step (c.exec d ts) (s.ex d) a = some (e', ev)) (ha : System.callAct a = true) :
    System.Inv c { s with ex := System.upd s.ex d e' } := by
  obtain ⟨k1, k2⟩ := System.call_d hs ha
  refine ⟨hi.m, ?_, ?_⟩
  · intro h ts' hh hp hn
    by_cases e : h = d
    · subst e; simp only [System.upd_same, k1] at hn; exact hi.act h ts' hh hp hn
    · simp only [System.upd_ne _ _ e] at hn; exact hi.act h ts' hh hp hn
  · intro h ts' hh hu
    by_cases e : h = d
    · subst e; simp only [System.upd_same, k1, k2] at hu ⊢; exact hi.ub h ts' hh hu
    · simp only [System.upd_ne _ _ e] at hu ⊢; exact hi.ub h ts' hh hu

theorem depth_top {l : List Srp.Rec} {t : Nat} (h : Srp.top l = some t) : System.depth l ≠ 0 := by
  induction l with
  | nil => cases h
  | cons x l ih => cases x <;> simp only [Srp.top, System.depth] at h ⊢ <;> first | omega | exact ih h

theorem code_top {c : Srp.Cfg} {l : List Srp.Rec} (hok : Srp.Ok c l) (h : Srp.inCode l = true) : ∃ t, Srp.top l = some t := by
  induction l with
  | nil => cases h
  | cons x l ih =>
    cases x with
    | lk r cur => obtain ⟨-, -, ⟨t, ht, -⟩, -, -⟩ := hok; exact ⟨t, ht⟩
    | cs r m => exact ih hok.2.2.2 hok.2.2.1
    | _ => first | exact ⟨_, rfl⟩ | cases h

/-- what a step of `Verif.System` is to the executors of one dispatcher -/
theorem ex_step {c : System.Cfg} (hwf : Srp.WellFormed c.srp) {s s' : System.St} {a : System.Act} {ev : List (Nat × Executor.Ev)} (hi : System.Inv c s) (h : System.Step c s a ev s') {d : Nat} {ts : List Nat} (hd : c.tasks d = some ts) :
    s'.ex d = s.ex d ∨ ∃ b evd, Executor.step (c.exec d ts) (s.ex d) b = some (s'.ex d, evd) ∧ ev = evd.map (d, ·) ∧ (∀ t a', b ≠ .callSpawn 0 t a' ∧ b ≠ .callWake 0 t) ∧
      (System.callAct b = true ∨ (s.ex d).d = .idle ∨ (Srp.top s.m.stack = some d ∧ a.own = true)) := by
  have hdep : System.userCode c s → System.depth s.m.stack ≠ 0 := by
    intro hu
    obtain ⟨t, ht⟩ := code_top hi.m.ok hu.1
    exact depth_top ht
  cases h with
  | hw h ht => exact .inl rfl
  | unhw h ht => exact .inl rfl
  | irqHw h m' ht hp hbest hm => exact .inl rfl
  | irqDisp h ts' m' ht hp hbest hm =>
    by_cases e : h = d
    · subst e
      rw [hd] at ht; cases ht
      obtain ⟨hp1, hpend, cur, htop, hadm⟩ := hp
      have hidle : (s.ex h).d = .idle := by
        by_cases hn : (s.ex h).d = .idle
        · exact hn
        · exact absurd (hi.act h ts hd hp1 hn) (System.not_active hwf hi.m hp1 htop hadm)
      have hub : (s.ex h).ub = false := by
        cases hu : (s.ex h).ub
        · rfl
        · exact absurd hidle (hi.ub h ts hd hu)
      have hirq : (s.ex h).irq = true := by simpa [System.pended, hd] using hpend
      exact .inr ⟨.disp false, [], by simp [Executor.step, hub, Executor.stepDisp, hidle, hirq, System.Cfg.exec], rfl, by simp, .inr (.inl hidle)⟩
    · exact .inl (System.upd_ne _ _ (Ne.symm e))
  | code a m' hq hc hm hni hu hf => exact .inl rfl
  | spawn d' ts' u a e' ev hq hc hu hd' hs =>
    by_cases e : d' = d
    · subst e; rw [hd] at hd'; cases hd'
      exact .inr ⟨_, _, by simp only [System.upd_same]; exact hs, rfl, by simp [hdep hu], .inl rfl⟩
    · exact .inl (System.upd_ne _ _ (Ne.symm e))
  | wake d' ts' u e' ev hq hc hu hd' hs =>
    by_cases e : d' = d
    · subst e; rw [hd] at hd'; cases hd'
      exact .inr ⟨_, _, by simp only [System.upd_same]; exact hs, rfl, by simp [hdep hu], .inl rfl⟩
    · exact .inl (System.upd_ne _ _ (Ne.symm e))
  | call d' ts' e' ev hq hu hd' hs =>
    by_cases e : d' = d
    · subst e; rw [hd] at hd'; cases hd'
      exact .inr ⟨_, _, by simp only [System.upd_same]; exact hs, rfl, by simp, .inl rfl⟩
    · exact .inl (System.upd_ne _ _ (Ne.symm e))
  | disp h i rest ts' r e' ev hq hc hst hd' hr hs =>
    by_cases e : h = d
    · subst e; rw [hd] at hd'; cases hd'
      exact .inr ⟨_, _, by simp only [System.upd_same]; exact hs, rfl, by simp, .inr (.inr ⟨by rw [hst]; rfl, rfl⟩)⟩
    · exact .inl (System.upd_ne _ _ (Ne.symm e))

theorem pend_step {c : System.Cfg} {s s' : System.St} {a : System.Act} {ev : List (Nat × Executor.Ev)} (h : System.Step c s a ev s') {t : Nat} (h1 : a ≠ .hw t) (h2 : a ≠ .unhw t) (h3 : a ≠ .irq t) : s'.pend t = s.pend t := by
  cases h with
  | hw h ht => exact System.upd_ne _ _ (fun e => h1 (by rw [e]))
  | unhw h ht => exact System.upd_ne _ _ (fun e => h2 (by rw [e]))
  | irqHw h m' ht hp hbest hm => exact System.upd_ne _ _ (fun e => h3 (by rw [e]))
  | _ => rfl

theorem active_step {c : System.Cfg} {s s' : System.St} {a : System.Act} {ev : List (Nat × Executor.Ev)} (h : System.Step c s a ev s') {t : Nat} (ha : System.Active t s.m.stack) (hf : a = .code .finish → Srp.top s.m.stack ≠ some t) :
    System.Active t s'.m.stack := by
  cases h with
  | irqHw h m' ht hp hbest hm => exact System.active_code hm ha (by simp)
  | irqDisp h ts' m' ht hp hbest hm => exact System.active_code hm ha (by simp)
  | code a m' hq hc hm hni hu hf' => exact System.active_code hm ha (fun e => hf (by rw [e]))
  | _ => exact ha

theorem exOk_of {c : Cfg} {d : Nat} {ts : List Nat} {b : Executor.Act} (h : ∀ t a', b ≠ .callSpawn 0 t a' ∧ b ≠ .callWake 0 t) : Delay.exOk (dcfg c d ts) b = true := by
  cases b with
  | callSpawn j t a =>
    refine decide_eq_true (fun hj : j = 0 => ?_)
    subst hj; exact (h t a).1 rfl
  | callWake j t =>
    refine decide_eq_true (fun hj : j = 0 => ?_)
    subst hj; exact (h t 0).2 rfl
  | _ => rfl

/-- an operation on delay `i` touches only this delay and leaves the handler alone -/
theorem op_frame {b : TimerQueue.Cfg} {s s' : TimerQueue.St} {a : TimerQueue.Act} {e : List TimerQueue.Ev} {i : Nat} (h : TimerQueue.step b s a = some (s', e)) (hi : opOf a = some i) :
    s'.h = s.h ∧ ∀ j, j ≠ i → s'.pc j = s.pc j := by
  cases TimerQueue.tr_of_step h <;> first | cases hi | skip
  all_goals
    refine ⟨rfl, fun j hj => ?_⟩
    first | rfl | simp [TimerQueue.set_apply, hj]

/-- handler and clock leave the futures alone -/
theorem hd_frame {b : TimerQueue.Cfg} {s s' : TimerQueue.St} {a : TimerQueue.Act} {e : List TimerQueue.Ev} (h : TimerQueue.step b s a = some (s', e)) (hi : opOf a = none) : s'.pc = s.pc := by
  cases TimerQueue.tr_of_step h <;> first | rfl | cases hi

theorem body_active {t : Nat} {i : Option Nat} {rest l : List Srp.Rec} (h : l = .body t i :: rest) : System.Active t l := ⟨.body t i, by rw [h]; exact List.mem_cons_self, .inr ⟨i, rfl⟩⟩

theorem inv_step {c : Cfg} (hwf : WellFormed c) {s s' : St} {a : Act} {ev : List (Nat × Executor.Ev)} (hi : Inv c s) (h : Step c s a ev s') : Inv c s' := by
  have hline : ∀ y q, (sync c y q).pend c.th = q.irq := fun y q => by simp [sync]
  cases h with
  | clock m o p q e hs =>
    refine ⟨inv_sync hi.y q, hline _ _, ?_, ?_, ?_, hi.calld⟩
    · intro hn
      refine hi.hact (fun e => hn ?_)
      cases TimerQueue.tr_of_step hs; exact e
    · intro d ts hd
      exact Delay.inv_tq (c := dcfg c d ts) hwf.width (hi.del d ts hd) rfl hs
    · intro i d ts hd ho hp
      rw [hd_frame hs rfl] at hp
      exact hi.busy i d ts hd ho hp
  | sys a ev y' hs h1 h2 h3 hop hu hf =>
    refine ⟨System.inv_step hwf.srp hi.y hs, (pend_step hs h1 h2 h3).trans hi.line, fun hn => active_step hs (hi.hact hn) (fun e ht => hn (hf e ht)), ?_, ?_, hi.calld⟩
    · intro d ts hd
      rcases ex_step hwf.srp hi.y hs hd with he | ⟨b, evd, h4, h5, h6, -⟩
      · have := delay_weaken (hi.del d ts hd) (w := waitsEx c.own s.waits ev) (fun i hw => waitsEx_le i hw)
        simp only [dst] at this ⊢
        rw [he]; exact this
      · have := Delay.inv_ex (hi.del d ts hd) (exOk_of h6) h4
        subst h5
        rw [waitsEx_map]
        exact this
    · intro i d ts hd ho hp
      obtain ⟨rest, hb⟩ := hi.busy i d ts hd ho hp
      rcases ex_step hwf.srp hi.y hs hd with he | ⟨b, evd, h4, h5, h6, h7⟩
      · exact ⟨rest, by simp only [he]; exact hb⟩
      · rcases h7 with h7 | h7 | ⟨h7, h8⟩
        · exact ⟨rest, by simp only [(System.call_d h4 h7).1]; exact hb⟩
        · rw [h7] at hb; cases hb
        · rcases hop h8 i ⟨d, ts, rest, hd, ho, h7, hb⟩ with h9 | h9 <;> rcases hp with ⟨wk, hp⟩ | hp <;> simp only [h9] at hp <;> cases hp
  | enter y' q e hs hq =>
    have hex : y'.ex = s.y.ex := by
      cases hs with
      | irqHw => rfl
      | irqDisp _ ts m' ht => rw [hwf.th] at ht; cases ht
    have hst : y'.m.stack = .enter c.th :: s.y.m.stack := by
      cases hs with
      | irqHw _ m' ht hp hbest hm => exact System.irq_stack hm
      | irqDisp _ ts m' ht => rw [hwf.th] at ht; cases ht
    refine ⟨inv_sync (System.inv_step hwf.srp hi.y hs) q, hline _ _, fun _ => ?_, ?_, ?_, hi.calld⟩
    · refine ⟨.enter c.th, ?_, .inl rfl⟩
      show _ ∈ y'.m.stack
      rw [hst]; exact List.mem_cons_self
    · intro d ts hd
      have := Delay.inv_tq (c := dcfg c d ts) hwf.width (hi.del d ts hd) rfl hq
      simp only [dst, sync] at this ⊢
      rw [hex]; exact this
    · intro i d ts hd ho hp
      rw [hd_frame hq rfl] at hp
      simp only [sync, hex]
      exact hi.busy i d ts hd ho hp
  | hgo q e hh hc hw hq =>
    obtain ⟨-, i0, rest, hst⟩ := hh
    refine ⟨inv_sync hi.y q, hline _ _, fun _ => body_active hst, ?_, ?_, hi.calld⟩
    · intro d ts hd
      refine Delay.inv_tq (c := dcfg c d ts) hwf.width (hi.del d ts hd) ?_ hq
      simp only [Delay.tqOk, Delay.St.wakes, dst, Bool.not_eq_true']
      split
      · rename_i wk hwk
        simp only [decide_eq_false_iff_not]
        exact fun hm => hw wk hwk ⟨d, ts, hd, hm⟩
      · rfl
    · intro i d ts hd ho hp
      rw [hd_frame hq rfl] at hp
      exact hi.busy i d ts hd ho hp
  | arm x q e hh hq =>
    obtain ⟨-, i0, rest, hst⟩ := hh
    refine ⟨inv_sync hi.y q, hline _ _, fun _ => body_active hst, ?_, ?_, hi.calld⟩
    · intro d ts hd
      exact Delay.inv_tq (c := dcfg c d ts) hwf.width (hi.del d ts hd) rfl hq
    · intro i d ts hd ho hp
      rw [hd_frame hq rfl] at hp
      exact hi.busy i d ts hd ho hp
  | hcall d ts wk e' ev hh hc hw hd hwk hs =>
    refine ⟨inv_caller hi.y hs rfl, hi.line, hi.hact, ?_, ?_, fun _ h => by cases h; exact ⟨ts, hd⟩⟩
    · intro d' ts' hd'
      by_cases e : d' = d
      · subst e
        rw [hd] at hd'; cases hd'
        have hstep : Delay.step (dcfg c d' ts) (dst s d') .hcall = some ({ dst s d' with ex := e', inCall := true }, ev.map .ex) := by
          simp only [Delay.step, dst, hw, hc]
          have hs' : Executor.step (dcfg c d' ts).xc (s.y.ex d') (.callWake (dcfg c d' ts).hid wk) = some (e', ev) := hs
          simp [hs']
        have := Delay.inv_step (c := dcfg c d' ts) hwf.width (hi.del d' ts hd) hstep
        simpa [dst] using this
      · have := hi.del d' ts' hd'
        simpa [dst, System.upd_ne _ _ e, hc, Ne.symm e] using this
    · intro i d' ts' hd' ho hp
      obtain ⟨rest, hb⟩ := hi.busy i d' ts' hd' ho hp
      by_cases e : d' = d
      · subst e; exact ⟨rest, by simp only [System.upd_same, (System.call_d hs rfl).1]; exact hb⟩
      · exact ⟨rest, by simp only [System.upd_ne _ _ e]; exact hb⟩
  | hacc d ts e' ev hh hc hd hs =>
    refine ⟨inv_caller hi.y hs rfl, hi.line, hi.hact, ?_, ?_, hi.calld⟩
    · intro d' ts' hd'
      by_cases e : d' = d
      · subst e
        rw [hd] at hd'; cases hd'
        have := Delay.inv_ex (hi.del d' ts hd) (a := .thr 0) rfl hs
        rw [waitsEx_map]
        simp only [dst, System.upd_same] at this ⊢
        exact this
      · have := delay_weaken (hi.del d' ts' hd') (w := waitsEx c.own s.waits (ev.map (d, ·))) (fun i hw => waitsEx_le i hw)
        simpa [dst, System.upd_ne _ _ e] using this
    · intro i d' ts' hd' ho hp
      obtain ⟨rest, hb⟩ := hi.busy i d' ts' hd' ho hp
      by_cases e : d' = d
      · subst e; exact ⟨rest, by simp only [System.upd_same, (System.call_d hs rfl).1]; exact hb⟩
      · exact ⟨rest, by simp only [System.upd_ne _ _ e]; exact hb⟩
  | hret d q e hh hc hidle hq =>
    obtain ⟨-, i0, rest, hst⟩ := hh
    refine ⟨inv_sync hi.y q, hline _ _, fun _ => body_active hst, ?_, ?_, by simp⟩
    · intro d' ts' hd'
      by_cases e1 : d' = d
      · subst e1
        have hstep : Delay.step (dcfg c d' ts') (dst s d') .hret = some ({ dst s d' with tq := q, inCall := false }, e.map .tq) := by
          have hq' : TimerQueue.step (dcfg c d' ts').tb s.tq .hgo = some (q, e) := hq
          have hid' : (s.y.ex d').pc (dcfg c d' ts').hid = .idle := hidle
          simp [Delay.step, dst, hc, hid', hq']
        have := Delay.inv_step (c := dcfg c d' ts') hwf.width (hi.del d' ts' hd') hstep
        simp only [dst, sync] at this ⊢
        simpa using this
      · have htok : Delay.tqOk (dcfg c d' ts') (dst s d') .hgo = true := by
          simp only [Delay.tqOk, Delay.St.wakes, dst, Bool.not_eq_true']
          split
          · rename_i wk hwk
            simp only [decide_eq_false_iff_not]
            intro hm
            obtain ⟨ts, hd⟩ := hi.calld d hc
            obtain ⟨wk', h1, h2⟩ := (hi.del d ts hd).call (by simp [dst, hc])
            rw [show s.tq.h = .h2 wk' from h1] at hwk
            cases hwk
            exact e1 (hwf.uniq _ _ _ _ _ hd' hd hm h2)
          · rfl
        have := Delay.inv_tq (c := dcfg c d' ts') hwf.width (hi.del d' ts' hd') htok hq
        simp only [dst, sync, hc, Option.some.injEq, Ne.symm e1, decide_false] at this ⊢
        simpa [Delay.waitsTq] using this
    · intro i d ts hd ho hp
      rw [hd_frame hq rfl] at hp
      exact hi.busy i d ts hd ho hp
  | op a i q e hqu hc huc hth hop hown hwk hst hq =>
    obtain ⟨hf1, hf2⟩ := op_frame hq hop
    refine ⟨inv_sync hi.y q, hline _ _, fun hn => hi.hact (by rw [← hf1]; exact hn), ?_, ?_, hi.calld⟩
    · intro d ts hd
      refine Delay.inv_tq (c := dcfg c d ts) hwf.width (hi.del d ts hd) ?_ hq
      cases a <;> simp only [Delay.tqOk] <;> try cases hop
      rename_i wk
      have := hwk _ _ rfl
      subst this
      simp only [dcfg, decide_true, Bool.true_and, Bool.or_eq_true]
      by_cases hm : c.own i ∈ ts
      · left
        obtain ⟨d', ts', r, h1, h2, h3, h4⟩ := hown ⟨d, ts, hd, hm⟩
        obtain rfl := hwf.uniq _ _ _ _ _ hd h1 hm h2
        simp only [dst, h4, Executor.Dpc.isBody, decide_true]
      · exact .inr (decide_eq_true hm)
    · intro j d ts hd ho hp
      by_cases hj : j = i
      · subst hj
        obtain ⟨d', ts', r, h1, h2, h3, h4⟩ := hown ⟨d, ts, hd, ho⟩
        obtain rfl := hwf.uniq _ _ _ _ _ hd h1 ho h2
        exact ⟨r, h4⟩
      · rw [hf2 j hj] at hp
        exact hi.busy j d ts hd ho hp

theorem inv_exec {c : Cfg} (hwf : WellFormed c) {s s' : St} {as : List Act} {tr : List (Nat × Executor.Ev)} (hi : Inv c s) (h : Exec c s as tr s') : Inv c s' := by
  induction h with
  | nil => exact hi
  | snoc h hs ih => exact inv_step hwf ih hs

theorem delay_calls {c : Delay.Cfg} : ∀ {acts : List Executor.Act} {s : Delay.St} {x : Executor.St} {tr : List Executor.Ev}, Delay.Inv c s → (∀ i, s.waits i = false) → (∀ a ∈ acts, Delay.exOk c a = true) → Executor.exec c.xc s.ex acts = some (x, tr) →
    Delay.Inv c { s with ex := x }
  | [], s, x, tr, hi, hw, ha, hx => by cases hx; exact hi
  | a :: acts, s, x, tr, hi, hw, ha, hx => by
    obtain ⟨s2, e1, e2, h1, h2, -⟩ := Executor.exec_cons hx
    have := Delay.inv_ex hi (ha a List.mem_cons_self) h1
    have hw' : Delay.waitsEx c.own s.waits e1 = s.waits := by funext i; simp [Delay.waitsEx, hw i]
    rw [hw'] at this
    exact delay_calls (s := { s with ex := s2 }) this hw (fun b hb => ha b (List.mem_cons_of_mem _ hb)) h2

theorem inv_start {c : Cfg} (hwf : WellFormed c) {s : St} (h : Start c s) : Inv c s := by
  have hs : System.Start c.sys s.y := ⟨h.m, fun d ts hd => by
    obtain ⟨acts, tr, h1, h2⟩ := h.calls d ts hd
    exact ⟨acts, tr, fun a ha => (h1 a ha).1, h2⟩, h.over⟩
  refine ⟨System.inv_start hwf.srp hwf.thread hs, by rw [h.line, h.tq]; rfl, fun hn => absurd (by rw [h.tq]; rfl) hn, ?_, ?_, fun d hd => by rw [h.call] at hd; cases hd⟩
  · intro d ts hd
    obtain ⟨acts, tr, h1, h2⟩ := h.calls d ts hd
    have := delay_calls (c := dcfg c d ts) (Delay.inv_init _) (fun _ => rfl) (fun a ha => exOk_of (h1 a ha).2) h2
    have hw : s.waits = fun _ => false := funext h.waits
    simpa [dst, h.tq, h.call, hw, Delay.init, dcfg] using this
  · intro i d ts hd ho hp
    rw [h.tq] at hp
    rcases hp with ⟨wk, hp⟩ | hp <;> cases hp

/-- the heart: a task that waits for an overdue delay is not forgotten by the interrupt controller -/
theorem overdue_urgent {c : Cfg} (hwf : WellFormed c) {s : St} (hi : Inv c s) {i d : Nat} {ts : List Nat} (hd : c.sys.tasks d = some ts) (ho : c.own i ∈ ts) (hp : 1 ≤ c.sys.srp.prio d) (hpt : c.sys.srp.prio d ≤ c.sys.srp.prio c.th) (hw : s.waits i = true) (hdue : Overdue c i s)
    (hh : ¬ HeldUp c (c.sys.srp.prio d) s) : System.Urgent c.sys (c.sys.srp.prio d) s.y := by
  have hD := hi.del d ts hd
  -- the dispatcher is active
  have hact : (s.y.ex d).d ≠ .idle → System.Urgent c.sys (c.sys.srp.prio d) s.y := fun hn => ⟨d, Nat.le_refl _, .inr (hi.y.act d ts hd hp hn)⟩
  -- the timer handler is active
  have hth : s.tq.h ≠ .idle → System.Urgent c.sys (c.sys.srp.prio d) s.y := fun hn => ⟨c.th, hpt, .inr (hi.hact hn)⟩
  by_cases hub : (s.y.ex d).ub = true
  · exact hact (hi.y.ub d ts hd hub)
  have hub : (s.y.ex d).ub = false := by simpa using hub
  by_cases hidle : s.tq.h = .idle
  · rcases hD.main i hw ho hub with ⟨wk, h⟩ | ⟨e, he, rfl⟩ | ⟨h, -⟩ | h | h
    · obtain ⟨rest, hb⟩ := hi.busy i d ts hd ho (.inl ⟨wk, h⟩)
      exact hact (by rw [hb]; simp)
    · obtain ⟨tr, htq⟩ := hD.tq
      have hinv := (TimerQueue.reach_inv hwf.width htq).1
      have ht : e.time + c.tb.sl ≤ s.tq.now := by
        have := hinv.time e he
        simp only [dst] at this
        rw [this]; exact hdue
      rcases TimerQueue.C28_overdue_pending hwf.width htq hidle he ht with h | ⟨j, h⟩
      · refine ⟨c.th, hpt, .inl ?_⟩
        simp only [System.pended, hwf.th, hi.line]
        exact h
      · -- somebody is about to pend: not of lower priority, so active
        apply Classical.byContradiction
        intro hn
        refine hh ⟨j, h, fun d' ts' hd' ho' => Nat.lt_of_not_le fun hle => hn ⟨d', hle, .inr ?_⟩⟩
        obtain ⟨rest, hb⟩ := hi.busy j d' ts' hd' ho' (.inr h)
        exact hi.y.act d' ts' hd' (by omega) (by rw [hb]; simp)
    · exact hth (by rw [show s.tq.h = .h2 _ from h]; simp)
    · have : (dst s d).ex.pc (dcfg c d ts).hid ≠ .idle := by obtain ⟨-, ⟨a, h⟩ | h | h | ⟨h, -⟩⟩ := h <;> simp [h]
      obtain ⟨wk, h, -⟩ := hD.call (hD.hid this)
      exact hth (by rw [show s.tq.h = .h2 _ from h]; simp)
    · exact System.ready_urgent hi.y hd hp (Executor.due_ready h hub)
  · exact hth hidle

theorem step_quiet {c : Cfg} {s s' : St} {a : Act} {ev : List (Nat × Executor.Ev)} (h : Step c s a ev s') (ho : a.own = true) : System.quiet c.sys s.y := by
  cases h with
  | clock => cases ho
  | sys a ev y' hs => exact System.own_quiet hs ho
  | enter => cases ho
  | hgo q e hh => exact hh.1
  | arm x q e hh => exact hh.1
  | hcall d ts wk e' ev hh => exact hh.1
  | hacc d ts e' ev hh => exact hh.1
  | hret d q e hh => exact hh.1
  | op a i q e hqu => exact hqu

/-- a step is a step of `Verif.System`, or leaves the stack alone -/
theorem step_sys {c : Cfg} {s s' : St} {a : Act} {ev : List (Nat × Executor.Ev)} (h : Step c s a ev s') :
    (∃ b ev' y', System.Step c.sys s.y b ev' y' ∧ s'.y.m = y'.m ∧ ∀ h, a.starts c = some h → b = .irq h) ∨ (s'.y.m = s.y.m ∧ a.starts c = none) := by
  cases h with
  | sys a ev y' hs h1 h2 h3 => exact .inl ⟨a, ev, y', hs, rfl, fun h e => by cases a <;> simp [Act.starts] at e <;> rw [e]⟩
  | enter y' q e hs hq => exact .inl ⟨_, _, y', hs, rfl, fun h e => by simp only [Act.starts, Option.some.injEq] at e; rw [e]⟩
  | _ => exact .inr ⟨rfl, rfl⟩

theorem oldBlock_congr {c : System.Cfg} {q : Nat} {s2 s s' : System.St} (h : s'.m = s.m) (ho : System.OldBlock c q s2 s) : System.OldBlock c q s2 s' := by
  unfold System.OldBlock at *
  rw [h]; exact ho

/-- **C83** In a running application with a monotonic, let `s2` be a moment at which task `own i` (priority `q = prio d ≥ 1`, at most that of the timer interrupt) waits for the delay `i`, and the delay is overdue; let it still wait in all states up to `s3`; and assume that, in these states, no code of lower priority than `q` is preempted between inserting its delay as
the earliest one and pending the timer interrupt (`HeldUp`). Then from `s2` to `s3` and in the next step no code of lower priority than `q` runs, except inside a critical section that was entered before `s2` and that blocks `q`; nothing of lower priority is started. -/
theorem C83_expired_runs_first_partial {c : Cfg} (hwf : WellFormed c) {st s2 s3 : St} {as0 as : List Act} {tr0 : List (Nat × Executor.Ev)} {i d : Nat} {ts : List Nat} (hst : Start c st) (hx : Exec c st as0 tr0 s2)
    (hd : c.sys.tasks d = some ts) (ho : c.own i ∈ ts) (hp : 1 ≤ c.sys.srp.prio d) (hpt : c.sys.srp.prio d ≤ c.sys.srp.prio c.th) (hw : While c (fun s => s.waits i = true ∧ Overdue c i s ∧ ¬ HeldUp c (c.sys.srp.prio d) s) s2 as s3) :
    (∀ a ev s4 cur, Step c s3 a ev s4 → a.own = true → Srp.top s3.y.m.stack = some cur → c.sys.srp.prio d ≤ c.sys.srp.prio cur ∨
      ∃ x below, Srp.BlockedAt c.sys.srp (c.sys.srp.prio d) x below ∧ (x :: below) <:+ s2.y.m.stack ∧ (x :: below) <:+ s3.y.m.stack) ∧
    (∀ a h, a ∈ as → a.starts c = some h → c.sys.srp.prio d ≤ c.sys.srp.prio h) := by
  have hi2 := inv_exec hwf (inv_start hwf hst) hx
  have key : Inv c s3 ∧ (s3.waits i = true ∧ Overdue c i s3 ∧ ¬ HeldUp c (c.sys.srp.prio d) s3) ∧ System.OldBlock c.sys (c.sys.srp.prio d) s2.y s3.y ∧ (∀ a h, a ∈ as → a.starts c = some h → c.sys.srp.prio d ≤ c.sys.srp.prio h) := by
    clear hx
    induction hw with
    | nil h => exact ⟨hi2, h, System.oldBlock_refl _ _ _, by simp⟩
    | @snoc w1 w2 bs b ev h hs hP ih =>
      obtain ⟨h1, ⟨h2, h3, h4⟩, h5, h6⟩ := ih
      have hu := overdue_urgent hwf h1 hd ho hp hpt h2 h3 h4
      have hstep : System.OldBlock c.sys (c.sys.srp.prio d) s2.y w2.y ∧ ∀ h, b.starts c = some h → c.sys.srp.prio d ≤ c.sys.srp.prio h := by
        rcases step_sys hs with ⟨b', ev', y', g1, g2, g3⟩ | ⟨g1, g2⟩
        · obtain ⟨k1, k2⟩ := System.urgent_step hwf.srp hp h1.y hu g1 h5
          exact ⟨oldBlock_congr g2 k1, fun h e => k2 h (g3 h e)⟩
        · exact ⟨oldBlock_congr g1 h5, fun h e => by rw [g2] at e; cases e⟩
      refine ⟨inv_step hwf h1 hs, hP, hstep.1, ?_⟩
      intro a' h' hm he
      rcases List.mem_append.1 hm with hm | hm
      · exact h6 a' h' hm he
      · rw [List.mem_singleton.1 hm] at he; exact hstep.2 h' he
  obtain ⟨h1, ⟨h2, h3, h4⟩, h5, h6⟩ := key
  refine ⟨?_, h6⟩
  intro a ev s4 cur hs hown htop
  rcases System.urgent_next hwf.srp hp h1.y (overdue_urgent hwf h1 hd ho hp hpt h2 h3 h4) (step_quiet hs hown) htop with h | h
  · exact .inl h
  · exact .inr (h5 h)

/-- **C83** (at once) While the delay of a task of priority `prio d` (at most that of the timer interrupt) is overdue, the task still waits, code of lower priority is at the processor and no critical section blocks `prio d` (and nothing is `HeldUp`): the running code makes no step; a handler at least as urgent is started, and this step is possible. -/
theorem C83_taken_at_once_partial {c : Cfg} (hwf : WellFormed c) {st s : St} {as : List Act} {tr : List (Nat × Executor.Ev)} {i d cur : Nat} {ts : List Nat} (hst : Start c st) (hx : Exec c st as tr s)
    (hd : c.sys.tasks d = some ts) (ho : c.own i ∈ ts) (hp : 1 ≤ c.sys.srp.prio d) (hpt : c.sys.srp.prio d ≤ c.sys.srp.prio c.th) (hw : s.waits i = true) (hdue : Overdue c i s) (hh : ¬ HeldUp c (c.sys.srp.prio d) s)
    (ht : Srp.top s.y.m.stack = some cur) (hlt : c.sys.srp.prio cur < c.sys.srp.prio d) (hb : ¬ Srp.Blocked c.sys.srp (c.sys.srp.prio d) s.y.m.stack) :
    (∃ a h s', a.starts c = some h ∧ c.sys.srp.prio d ≤ c.sys.srp.prio h ∧ Step c s a [] s') ∧ ∀ a ev s', Step c s a ev s' → a.own = true → False := by
  have hi := inv_exec hwf (inv_start hwf hst) hx
  have hu := overdue_urgent hwf hi hd ho hp hpt hw hdue hh
  obtain ⟨h, h1, h2⟩ := System.urgent_takeable hwf.srp hi.y hp (hwf.srp.prio d) hu ht (Srp.admitted_of_free hwf.srp hi.y.m hp ht hlt hb)
  refine ⟨?_, fun a ev s' hs hown => step_quiet hs hown h h1⟩
  obtain ⟨h', y', h3, hs⟩ := System.take_exists hwf.srp h1
  by_cases e : h' = c.th
  · subst e
    have htk : System.takeable c.sys s.y c.th := by cases hs <;> assumption
    obtain ⟨g1, g2, cur', g3, g4⟩ := htk
    have hidle : s.tq.h = .idle := Classical.byContradiction fun hn => System.not_active hwf.srp hi.y.m g1 g3 g4 (hi.hact hn)
    have hirq : s.tq.irq = true := by
      rw [← hi.line]
      simpa [System.pended, hwf.th] using g2
    exact ⟨.enter, c.th, _, rfl, Nat.le_trans h2 h3, .enter y' _ [] hs (by simp only [TimerQueue.step, hidle, hirq]; rfl)⟩
  · refine ⟨.sys (.irq h'), h', _, rfl, Nat.le_trans h2 h3, .sys (.irq h') [] y' hs (by simp) (by simp) (by simpa using e) (by simp [System.Act.own]) (by simp [userAct]) (by simp)⟩

end Verif.Timed
