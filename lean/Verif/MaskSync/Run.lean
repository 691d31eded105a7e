import Verif.MaskSync.Props
import Verif.MaskSystem.Cases
import Verif.Sync.Run

/-!
# Executable version of `Verif.MaskSync`, and examples

`next` computes a step; `run_sound` proves that what `run` computes is an execution. Used to show that the hypotheses of the theorems are met.
-/

namespace Verif.MaskSync

open Verif
open Verif.Sync (Ev pc_call disp_pc)

variable {S A E : Type}

/-- the dispatcher of a task -/
def dispOf (c : Cfg S A E) (n t : Nat) : Option Nat := (List.range n).find? fun d => match c.sys.tasks d with | some ts => decide (t ∈ ts) | none => false

/-- one step (an action that calls a waker of something else than a task is not computed) -/
def next (c : Cfg S A E) (u0 : Nat → Nat → Bool) (n : Nat) (s : St S) : Act A → Option (List (Ev A E) × St S)
  | .sys a =>
    match MaskSystem.next c.sys u0 n s.y a with
    | some (ev, y') => some (ev.map fun x => .ex x.1 x.2, { s with y := y' })
    | none => none
  | .op a =>
    match c.m s.m a with
    | none => none
    | some (m', e) =>
      match called c e with
      | [] => if MaskSystem.quietB c.sys n s.y && MaskSystem.noCallB n s.y && MaskSystem.userCodeB c.sys s.y then some (.act a :: e.map .m, { s with m := m' }) else none
      | [t] =>
        match dispOf c n t with
        | some d =>
          match MaskSystem.next c.sys u0 n s.y (.wake d t) with
          | some (_, y') => some (.act a :: e.map .m, { y := y', m := m' })
          | none => none
        | none => none
      | _ => none

theorem next_sound {c : Cfg S A E} {n : Nat} {s s' : St S} {a : Act A} {ev : List (Ev A E)} {u0 : Nat → Nat → Bool} (hu0 : ∀ t r, u0 t r = true → c.sys.sm.uses t r) (hn : MaskSystem.Small c.sys n) (hi : MaskSystem.Idle c.sys s.y) (h : next c u0 n s a = some (ev, s')) : Step c s a ev s' := by
  cases a with
  | sys a =>
    simp only [next] at h
    split at h
    · next ev' y' hs => cases h; exact .sys a ev' y' (MaskSystem.next_sound hu0 hn hi hs)
    · cases h
  | op a =>
    simp only [next] at h
    split at h
    · cases h
    · next m' e hm =>
      split at h
      · next hw =>
        split at h
        · next hc =>
          simp only [Bool.and_eq_true] at hc
          cases h
          exact .op a m' e (MaskSystem.quiet_of hn hc.1.1) (MaskSystem.noCall_of hn hi hc.1.2) (MaskSystem.userCode_of hc.2) hm (by rw [hw]; simp)
        · cases h
      · next t hw =>
        split at h
        · next d hd =>
          split at h
          · next ev' y' hs =>
            cases h
            have hd' := List.find?_some hd
            split at hd'
            · next ts hts => exact .wake a m' e d ts t ev' y' hm hw hts (of_decide_eq_true hd') (MaskSystem.next_sound hu0 hn hi hs)
            · cases hd'
          · cases h
        · cases h
      · cases h

theorem idle_step {c : Cfg S A E} {s s' : St S} {a : Act A} {ev : List (Ev A E)} (hi : MaskSystem.Idle c.sys s.y) (h : Step c s a ev s') : MaskSystem.Idle c.sys s'.y := by
  cases h with
  | sys a ev y' h => exact MaskSystem.idle_step hi h
  | op a m' e hq hc hu hm hw => exact hi
  | wake a m' e d ts t ev y' hm hw hd ht hy => exact MaskSystem.idle_step hi hy

def run (c : Cfg S A E) (u0 : Nat → Nat → Bool) (n : Nat) : St S → List (Act A) → Option (List (Ev A E) × St S)
  | s, [] => some ([], s)
  | s, a :: as =>
    match next c u0 n s a with
    | some (ev, s1) =>
      match run c u0 n s1 as with
      | some (tr, s2) => some (ev ++ tr, s2)
      | none => none
    | none => none

theorem run_sound {c : Cfg S A E} {n : Nat} {u0 : Nat → Nat → Bool} (hu0 : ∀ t r, u0 t r = true → c.sys.sm.uses t r) (hn : MaskSystem.Small c.sys n) : ∀ (as : List (Act A)) {s s' : St S} {tr : List (Ev A E)}, MaskSystem.Idle c.sys s.y → run c u0 n s as = some (tr, s') → Exec c s as tr s' ∧ MaskSystem.Idle c.sys s'.y
  | [], s, s', tr, hi, h => by cases h; exact ⟨.nil _, hi⟩
  | a :: as, s, s', tr, hi, h => by
    simp only [run] at h
    split at h
    · next ev s1 h1 =>
      split at h
      · next tr' s2 h2 =>
        cases h
        have hs := next_sound hu0 hn hi h1
        obtain ⟨k1, k2⟩ := run_sound hu0 hn as (idle_step hi hs) h2
        exact ⟨Exec.trans (.snoc (.nil _) hs) k1, k2⟩
      · cases h
    · cases h

/-! ## Handlers that are not active are in no call -/

/-- only handlers on the stack are inside a call of `spawn` or of a waker -/
def CallsOn (s : MaskSystem.St) : Prop := ∀ d j, j = 0 ∨ MaskSystem.depth s.m.stack < j → (s.ex d).pc j = .idle

theorem depth_pos {c : SourceMask.Cfg} {e0 : SourceMask.Regs} {l : List SourceMask.Rec} (ho : SourceMask.Ok c e0 l) (h : SourceMask.inCode l = true) : 0 < MaskSystem.depth l := by
  induction l with
  | nil => cases h
  | cons x l ih =>
    cases x with
    | body t => simp [MaskSystem.depth]
    | lk r o => obtain ⟨-, -, -, h2, h3⟩ := ho; exact ih h3 h2
    | cs r m => obtain ⟨-, -, h2, h3⟩ := ho; exact ih h3 h2
    | _ => cases h

theorem depth_code {c : SourceMask.Cfg} {m m' : SourceMask.St} {a : SourceMask.Act} (h : SourceMask.Step c m a m') : MaskSystem.depth m.stack ≤ MaskSystem.depth m'.stack + 1 := by
  cases h <;> simp_all [MaskSystem.depth] <;> omega

theorem callsOn_step {c : MaskSystem.Cfg} {e0 : SourceMask.Regs} {s s' : MaskSystem.St} {a : MaskSystem.Act} {ev : List (Nat × Executor.Ev)} (hv : MaskSystem.Inv c e0 s) (hi : CallsOn s) (h : MaskSystem.Step c s a ev s') : CallsOn s' := by
  have hcall : ∀ {d' ts' a e' ev}, MaskSystem.userCode c s → Executor.step (c.exec d' ts') (s.ex d') a = some (e', ev) → ((∃ t x, a = .callSpawn (MaskSystem.depth s.m.stack) t x) ∨ (∃ t, a = .callWake (MaskSystem.depth s.m.stack) t) ∨ a = .thr (MaskSystem.depth s.m.stack) ∨ ∃ r, a = .disp r) →
      CallsOn { s with ex := MaskSystem.upd s.ex d' e' } := by
    intro d' ts' a e' ev hu hs ha d j hj
    have hpos := depth_pos hv.m.ok hu.1
    have hne : j ≠ MaskSystem.depth s.m.stack := by
      simp only at hj
      omega
    by_cases e : d = d'
    · subst e; simp only [MaskSystem.upd_same]; rw [pc_call hs ha hne]; exact hi d j hj
    · simp only [MaskSystem.upd_ne _ _ e]; exact hi d j hj
  cases h with
  | hw h ht => exact hi
  | unhw h ht => exact hi
  | irqHw h m' ht hp hbest hm =>
    intro d j hj
    refine hi d j ?_
    have := MaskSystem.irq_stack hm
    simp only [this, MaskSystem.depth] at hj
    omega
  | irqDisp h ts m' ht hp hbest hm =>
    intro d j hj
    have := MaskSystem.irq_stack hm
    simp only [this, MaskSystem.depth] at hj
    by_cases e : d = h
    · subst e; simp only [MaskSystem.upd_same]; exact hi d j (by omega)
    · simp only [MaskSystem.upd_ne _ _ e]; exact hi d j (by omega)
  | code a m' hq hc hm hni hnv hu hf =>
    intro d j hj
    by_cases e : j = MaskSystem.depth s.m.stack
    · rw [e]; exact hc d
    · refine hi d j ?_
      have := depth_code hm
      simp only at hj
      omega
  | spawn d ts u a e' ev hq hc hu hd hs => exact hcall hu hs (.inl ⟨_, _, rfl⟩)
  | wake d ts u e' ev hq hc hu hd hs => exact hcall hu hs (.inr (.inl ⟨_, rfl⟩))
  | call d ts e' ev hq hu hd hs => exact hcall hu hs (.inr (.inr (.inl rfl)))
  | disp h rest ts r e' ev hq hc hst hd hr hs =>
    intro d j hj
    by_cases e : d = h
    · subst e; simp only [MaskSystem.upd_same]; rw [disp_pc hs]; exact hi d j hj
    · simp only [MaskSystem.upd_ne _ _ e]; exact hi d j hj

theorem callsOn_exec {c : MaskSystem.Cfg} {e0 : SourceMask.Regs} (hwf : SourceMask.WellFormed c.sm) {s s' : MaskSystem.St} {as : List MaskSystem.Act} {tr : List (Nat × Executor.Ev)} (hv : MaskSystem.Inv c e0 s) (hi : CallsOn s) (h : MaskSystem.Exec c s as tr s') : CallsOn s' := by
  induction h with
  | nil => exact hi
  | snoc h hs ih => exact callsOn_step (MaskSystem.inv_exec hwf hv h) ih hs

/-- while the thread runs, only its own calls can be under way -/
theorem noCall_thread {c : Cfg S A E} {e0 : SourceMask.Regs} (hsm : SourceMask.WellFormed c.sys.sm) (hth : c.sys.sm.prio 0 = 0) {st s : St S} {tr0 tr : List (Ev A E)} {as : List (Act A)} (hst : Start c e0 st tr0) (hx : Exec c st as tr s) (h1 : MaskSystem.depth s.y.m.stack = 1) {d t : Nat} (hpc : (s.y.ex d).pc 1 = .idle) : Await.NoCall t (s.y.ex d) := by
  obtain ⟨bs, hy, -⟩ := sys_exec hx
  have := callsOn_exec hsm (MaskSystem.inv_start hth hst.y) (fun d j _ => hst.y.over d j) hy
  intro j
  have : (s.y.ex d).pc j = .idle := by
    by_cases e : j = 1
    · rw [e]; exact hpc
    · exact this d j (by omega)
  rw [this]; simp

/-! ## Example: dispatcher 2 (priority 2) polls task 7, handler 3 is a hardware task of priority 3, the thread is idle -/

theorem demo_one {d d' : Nat} {ts ts' : List Nat} {t : Nat} (h : MaskSystem.oneReg.tasks d = some ts) (h' : MaskSystem.oneReg.tasks d' = some ts') (_ : t ∈ ts) (_ : t ∈ ts') : d = d' := by
  simp only [MaskSystem.oneReg, MaskSystem.caseCfg] at h h'
  split at h
  · split at h'
    · omega
    · cases h'
  · cases h

/-- idle spawns task `t`, whose dispatcher `d` (alone with `t`) polls it; -/
def pollIt (d t : Nat) : List (Act A) :=
  [.sys (.spawn d t 5), .sys (.call d), .sys (.call d), .sys (.call d), .sys (.call d), .sys (.irq d), .sys (.disp d false), .sys (.disp d false), .sys (.disp d false)]

/-- the poll returns `Pending` and the dispatcher returns to idle; -/
def backFrom (d : Nat) : List (Act A) := [.sys (.disp d false), .sys (.disp d false), .sys (.code .ret)]

/-- the hardware task `h` is entered; -/
def enterHw (h : Nat) : List (Act A) := [.sys (.hw h), .sys (.irq h)]

/-- its call of the waker ends, and it returns. -/
def retHw (d : Nat) : List (Act A) := [.sys (.call d), .sys (.call d), .sys (.code .ret)]

def demoPoll : List (Act A) := pollIt 2 7
def demoBack : List (Act A) := backFrom 2
def demoHw : List (Act A) := enterHw 3
def demoRet : List (Act A) := retHw 2

/-- idle runs, nothing has been spawned; `e0`: the interrupts enabled -/
def startOf (e0 : SourceMask.Regs) (m : S) : St S := { y := { m := SourceMask.start 0 e0, pend := fun _ => false, ex := fun _ => Executor.init }, m := m }

theorem start_of (c : Cfg S A E) (e0 : SourceMask.Regs) : Start c e0 (startOf e0 c.m0) [] := ⟨⟨rfl, fun _ _ _ => ⟨[], [], by simp, rfl⟩, fun _ _ => rfl⟩, fun d ts hd => ⟨[], by simp, rfl⟩⟩

theorem idle_of {c : MaskSystem.Cfg} {e0 : SourceMask.Regs} {m : S} : MaskSystem.Idle c (startOf e0 m).y := fun _ _ _ => rfl

theorem demo_wf {c : Cfg S A E} (hc : c.sys = MaskSystem.oneReg) : WellFormed c MaskSystem.allOn 2 := by
  refine ⟨by rw [hc]; exact MaskSystem.case_wf (by decide) (by simp) (by simp) (by simp), by rw [hc]; exact MaskSystem.oneReg_plain, by rw [hc]; rfl, ?_⟩
  intro d d' ts ts' t h h' ht ht'
  rw [hc] at h h'
  exact demo_one h h' ht ht'

/-- the run ends, with history `a`, poll of task `t`, `b`, and idle is at the processor (in no call); `f` holds of the state of the primitive -/
def runOk [DecidableEq A] [DecidableEq E] (d t : Nat) (f : S → Bool) (a b : List (Ev A E)) (x : Option (List (Ev A E) × St S)) : Bool :=
  match x with
  | some (tr, s) => decide (tr = a ++ .ex d (.polled t) :: b) && decide (MaskSystem.depth s.y.m.stack = 1) && decide ((s.y.ex d).pc 1 = .idle) && decide (SourceMask.top s.y.m.stack = some 0) && f s.m
  | none => false

/-- what the examples check: the execution reaches a state in which the thread is at the processor, in no call, and nothing has been polled since `b` began -/
theorem run_waits [DecidableEq A] [DecidableEq E] {c : Cfg S A E} {e0 : SourceMask.Regs} {d : Nat} (hwf : WellFormed c e0 d) {n : Nat} {u0 : Nat → Nat → Bool} (hu0 : ∀ t r, u0 t r = true → c.sys.sm.uses t r) (hn : MaskSystem.Small c.sys n) {t : Nat} {ts : List Nat} (htask : c.sys.tasks d = some ts) (hmem : t ∈ ts) (hprio : 1 ≤ c.sys.sm.prio d)
    {as : List (Act A)} {f : S → Bool} {a b : List (Ev A E)} (h : runOk d t f a b (run c u0 n (startOf e0 c.m0) as) = true) (ha : ∀ t', .ex d (.badPoll t') ∉ a) (hb : ∀ e, .ex d e ∉ b) :
    ∃ s tr, tr = a ++ .ex d (.polled t) :: b ∧ Waits c e0 d t ts (startOf e0 c.m0) s s [] tr [] b [] ∧ SourceMask.top s.y.m.stack = some 0 ∧ f s.m = true := by
  unfold runOk at h
  split at h
  · next tr s hr =>
    simp only [Bool.and_eq_true, decide_eq_true_eq] at h
    obtain ⟨⟨⟨⟨h1, h2⟩, h3⟩, h4⟩, h5⟩ := h
    have hX := (run_sound hu0 hn as idle_of hr).1
    refine ⟨s, tr, h1, ?_, h4, h5⟩
    exact {
      start := start_of c e0
      run1 := ⟨as, hX⟩
      task := htask
      mem := hmem
      prio := hprio
      since := ⟨a, by simpa using h1, hb _, hb _⟩
      idle := noCall_thread hwf.sm hwf.thread (start_of c e0) hX h2 h3
      run2 := .nil _
      notPolled := by simp
      notCompleted := by simp
      noBad := by intro t'; rw [h1]; simp [ha t', hb] }
  · cases h

theorem demo_ok [DecidableEq A] [DecidableEq E] {c : Cfg S A E} (hc : c.sys = MaskSystem.oneReg) {as : List (Act A)} {f : S → Bool} {a b : List (Ev A E)} (h : runOk 2 7 f a b (run c MaskSystem.caseUses 4 (startOf MaskSystem.allOn c.m0) as) = true)
    (ha : ∀ t', .ex 2 (.badPoll t') ∉ a) (hb : ∀ e, .ex 2 e ∉ b) : ∃ s tr, tr = a ++ .ex 2 (.polled 7) :: b ∧ Waits c MaskSystem.allOn 2 7 [7] (startOf MaskSystem.allOn c.m0) s s [] tr [] b [] ∧ SourceMask.top s.y.m.stack = some 0 ∧ f s.m = true :=
  run_waits (demo_wf hc) (by rw [hc]; exact MaskSystem.case_uses) (by rw [hc]; exact MaskSystem.case_small) (by rw [hc]; rfl) (List.mem_singleton.2 rfl) (by rw [hc]; decide) h ha hb

/-- task 7 awaits `wait()`; the hardware task writes 42 and returns to idle -/
def sigActs : List (Act (Signal.Act Nat)) := demoPoll ++ [.op .wait, .op (.poll 7), .op .go, .op .go] ++ demoBack ++ demoHw ++ [.op (.write 0 (some 42)), .op (.wake 0)] ++ demoRet

/-- The hypotheses of `C103_signal_returned_partial` are met: idle is at the processor, and does not get to run before task 7 is polled. -/
example : ∃ s tr b1 b2, Waits (signal Nat MaskSystem.oneReg) MaskSystem.allOn 2 7 [7] (startOf MaskSystem.allOn Signal.init) s s [] tr [] (b1 ++ .m (.reg 7) :: b2) [] ∧ (∀ w, .m (.reg w) ∉ b2) ∧ .act (.wake 0) ∈ b2 ∧ SourceMask.top s.y.m.stack = some 0 ∧ Preempts (signal Nat MaskSystem.oneReg) 2 [7] s [] s := by
  obtain ⟨s, tr, -, hw, h0, -⟩ := demo_ok (c := signal Nat MaskSystem.oneReg) rfl (f := fun _ => true) (as := sigActs) (a := [.ex 2 (.ok 7 5), .ex 2 (.started 7 5)])
    (b := [.act .wait, .act (.poll 7), .act .go] ++ .m (.reg 7) :: [.act .go, .m (.read none), .act (.write 0 (some 42)), .m (.stored 42), .act (.wake 0), .m (.woke 7)]) (by decide +kernel) (by simp) (by simp)
  exact ⟨s, tr, _, _, hw, by simp, by simp, h0, C103_signal_returned_partial (demo_wf rfl) (i := 0) hw (by simp) (by simp)⟩

/-- task 7 awaits `changed()`; the hardware task writes 42 and returns to idle -/
def watchActs : List (Act (Watch.Act Nat)) := demoPoll ++ [.op .changed, .op (.poll 7), .op .go, .op .go, .op .go] ++ demoBack ++ demoHw ++ [.op (.write 0 42), .op (.wake 0)] ++ demoRet

example : ∃ s tr b1 b2, Waits (watch Nat MaskSystem.oneReg) MaskSystem.allOn 2 7 [7] (startOf MaskSystem.allOn Watch.init) s s [] tr [] (b1 ++ .m (.reg 7) :: b2) [] ∧ (∀ w, .m (.reg w) ∉ b2) ∧ .act (.wake 0) ∈ b2 ∧ SourceMask.top s.y.m.stack = some 0 ∧ Preempts (watch Nat MaskSystem.oneReg) 2 [7] s [] s := by
  obtain ⟨s, tr, -, hw, h0, -⟩ := demo_ok (c := watch Nat MaskSystem.oneReg) rfl (f := fun _ => true) (as := watchActs) (a := [.ex 2 (.ok 7 5), .ex 2 (.started 7 5)])
    (b := [.act .changed, .act (.poll 7), .act .go] ++ .m (.reg 7) :: [.act .go, .act .go, .m (.copied none), .act (.write 0 42), .m (.stored 42), .act (.wake 0), .m (.woke 7)]) (by decide +kernel) (by simp) (by simp)
  exact ⟨s, tr, _, _, hw, by simp, by simp, h0, C103_watch_returned_partial (demo_wf rfl) (i := 0) hw (by simp) (by simp)⟩

/-- task 7 awaits `recv()`; the hardware task sends 42 and returns to idle -/
def recvActs : List (Act (Channel.Act Nat)) :=
  demoPoll ++ [.op (.pollRecv 7), .op .goR, .op .goR, .op .goR] ++ demoBack ++ demoHw ++ [.op (.startTry 0 42), .op (.go 0), .op (.go 0), .op (.go 0), .op (.go 0), .op (.go 0), .op (.go 0)] ++ demoRet

example : ∃ s tr b1 b2, Waits (channel Nat 1 MaskSystem.oneReg) MaskSystem.allOn 2 7 [7] (startOf MaskSystem.allOn (Channel.init 1)) s s [] tr [] (b1 ++ .m (.reg 7) :: b2) [] ∧ (∀ w, .m (.reg w) ∉ b2) ∧ .m (.sendOk 0) ∈ b2 ∧ SourceMask.top s.y.m.stack = some 0 ∧ Preempts (channel Nat 1 MaskSystem.oneReg) 2 [7] s [] s := by
  obtain ⟨s, tr, -, hw, h0, -⟩ := demo_ok (c := channel Nat 1 MaskSystem.oneReg) rfl (f := fun _ => true) (as := recvActs) (a := [.ex 2 (.ok 7 5), .ex 2 (.started 7 5)])
    (b := [.act (.pollRecv 7), .act .goR] ++ .m (.reg 7) :: [.act .goR, .act .goR, .m .recvPending, .act (.startTry 0 42), .m (.start 0 42), .act (.go 0), .act (.go 0), .act (.go 0), .act (.go 0), .act (.go 0), .m (.enq 0 42), .act (.go 0), .m (.wokeR 7), .m (.sendOk 0)])
    (by decide +kernel) (by simp) (by simp)
  exact ⟨s, tr, _, _, hw, by simp, by simp, h0, C103_recv_returned_partial (demo_wf rfl) (i := 0) hw (by simp) (by simp)⟩

/-- task 7 awaits `access()` as client 1, while client 0 (idle) holds the access; the hardware task releases it and returns to idle -/
def accessActs : List (Act Arbiter.Act) := .op (.tryAccess 0) :: (demoPoll ++ [.op (.access 1), .op (.poll 1 7)] ++ demoBack ++ demoHw ++ [.op (.dropTok 0)] ++ demoRet)

example : ∃ s tr b1 b2, Waits (arbiter MaskSystem.oneReg) MaskSystem.allOn 2 7 [7] (startOf MaskSystem.allOn Arbiter.init) s s [] tr [] (b1 ++ .act (.poll 1 7) :: b2) [] ∧ s.m.pc 1 = .fut ∧ SourceMask.top s.y.m.stack = some 0 ∧ Preempts (arbiter MaskSystem.oneReg) 2 [7] s [] s := by
  obtain ⟨s, tr, htr, hw, h0, hf⟩ := demo_ok (c := arbiter MaskSystem.oneReg) rfl (f := fun m => decide (m.pc 1 = .fut) && decide ((Arbiter.step m (.poll 1 7)).map Prod.snd = some [.acquired 1])) (as := accessActs)
    (a := [.act (.tryAccess 0), .m (.acquired 0), .ex 2 (.ok 7 5), .ex 2 (.started 7 5)]) (b := [.act (.access 1)] ++ .act (.poll 1 7) :: [.m (.waiting 1), .act (.dropTok 0), .m (.released 0), .m (.handed 1 7)]) (by decide +kernel) (by simp) (by simp)
  simp only [Bool.and_eq_true, decide_eq_true_eq, Option.map_eq_some_iff] at hf
  obtain ⟨hp, ⟨s', e⟩, hst, he⟩ := hf
  cases he
  exact ⟨s, tr, _, _, hw, hp, h0, C103_access_ready_partial (demo_wf rfl) (i := 1) hw (by simp) hp (by intro w h; rw [htr] at h; simpa using h) ⟨s', hst⟩⟩

/-- task 7 awaits `send(42)` on a full channel of capacity 1; the hardware task receives and returns to idle -/
def sendActs : List (Act (Channel.Act Nat)) :=
  [.op (.clone 0 1), .op (.startTry 0 7), .op (.go 0), .op (.go 0), .op (.go 0), .op (.go 0), .op (.go 0), .op (.go 0)] ++ demoPoll ++ [.op (.startSend 1 42), .op (.poll 1 7)] ++ demoBack ++ demoHw ++
    [.op .startTryRecv, .op .goR, .op .goR, .op .goR] ++ demoRet

example : ∃ s tr b1 b2, Waits (channel Nat 1 MaskSystem.oneReg) MaskSystem.allOn 2 7 [7] (startOf MaskSystem.allOn (Channel.init 1)) s s [] tr [] (b1 ++ .act (.poll 1 7) :: b2) [] ∧ s.m.snd 1 = .snd 42 ∧ SourceMask.top s.y.m.stack = some 0 ∧ Preempts (channel Nat 1 MaskSystem.oneReg) 2 [7] s [] s := by
  obtain ⟨s, tr, htr, hw, h0, hf⟩ := demo_ok (c := channel Nat 1 MaskSystem.oneReg) rfl
    (f := fun m => decide (m.snd 1 = .snd 42) && (match Channel.step 1 m (.poll 1 7) with | some (m', _) => decide (m'.snd 1 ≠ .snd 42) | none => false) && (Channel.step 1 m .goR).isNone) (as := sendActs)
    (a := [.act (.clone 0 1), .act (.startTry 0 7), .m (.start 0 7), .act (.go 0), .act (.go 0), .act (.go 0), .act (.go 0), .act (.go 0), .m (.enq 0 7), .act (.go 0), .m (.sendOk 0), .ex 2 (.ok 7 5), .ex 2 (.started 7 5)])
    (b := [.act (.startSend 1 42), .m (.start 1 42)] ++ .act (.poll 1 7) :: [.act .startTryRecv, .act .goR, .act .goR, .act .goR, .m (.wokeS 1 7), .m (.recvd 7)]) (by decide +kernel) (by simp) (by simp)
  simp only [Bool.and_eq_true, decide_eq_true_eq, Option.isNone_iff_eq_none] at hf
  obtain ⟨⟨hp, hq⟩, hr⟩ := hf
  split at hq
  · next m' e hst => exact ⟨s, tr, _, _, hw, hp, h0, C103_send_ready_partial (demo_wf rfl) (i := 1) hw (by simp) hp (by intro w h; rw [htr] at h; simpa using h) ⟨m', e, hst, of_decide_eq_true hq⟩ hr⟩
  · cases hq

/-! ## Without the conditions -/

/-- task 7 awaits `wait()`; idle is inside `lock` of resource 10, between the two register writes, when the hardware task 3 writes 42 and returns to idle -/
def invActs : List (Act (Signal.Act Nat)) :=
  demoPoll ++ [.op .wait, .op (.poll 7), .op .go, .op .go] ++ demoBack ++ [.sys (.code (.lock 10)), .sys (.code .acc), .sys (.code .acc), .sys (.code .acc), .sys (.code .acc)] ++ demoHw ++ [.op (.write 0 (some 42)), .op (.wake 0)] ++ demoRet

def invOk (x : Option (List (Ev (Signal.Act Nat) (Signal.Ev Nat)) × St (Signal.St Nat))) (b : List (Ev (Signal.Act Nat) (Signal.Ev Nat))) : Bool :=
  match x with
  | some (tr, s) => decide (tr = [.ex 2 (.ok 7 5), .ex 2 (.started 7 5)] ++ .ex 2 (.polled 7) :: b) && decide (MaskSystem.depth s.y.m.stack = 1) && decide ((s.y.ex 2).pc 1 = .idle) &&
    match run (signal Nat MaskSystem.twoRegs) MaskSystem.caseUses 4 s [.sys (.hw 1), .sys (.irq 1)] with
    | some (tr2, _) => decide (tr2 = [])
    | none => false
  | none => false

/-- **C103** (false if the interrupts are in two registers) There is an application with a signal, all of whose interrupts are enabled, in which task 7 of priority 2 has registered its waker, a `write` has returned since, and before the task is polled, a task of priority 1 is started, which shares nothing. (The thread was interrupted between the
two register writes of a `lock`; the interrupt of the dispatcher is disabled already, that of the other task is not.) -/
theorem C103_inversion_violated : ∃ (sys : MaskSystem.Cfg) (e0 : SourceMask.Regs) (_ : SourceMask.WellFormed sys.sm) (st s2 s3 : St (Signal.St Nat)) (tr1 b1 b2 : List (Ev (Signal.Act Nat) (Signal.Ev Nat))) (as2 : List (Act (Signal.Act Nat))) (d t i : Nat) (ts : List Nat) (h : Nat),
    sys.sm.prio 0 = 0 ∧ (∀ t, 1 ≤ sys.sm.prio t → ∃ n, sys.sm.bind t = some n ∧ SourceMask.enabled e0 n = true) ∧ (∀ p q n, (p, n) ∈ sys.sm.irqs → (q, n) ∈ sys.sm.irqs → p = q) ∧
    (∀ d d' ts ts' t, sys.tasks d = some ts → sys.tasks d' = some ts' → t ∈ ts → t ∈ ts' → d = d') ∧ Waits (signal Nat sys) e0 d t ts st s2 s3 [] tr1 [] (b1 ++ .m (.reg t) :: b2) as2 ∧ (∀ w, .m (.reg w) ∉ b2) ∧ .act (.wake i) ∈ b2 ∧
    .sys (.irq h) ∈ as2 ∧ sys.sm.prio h < sys.sm.prio d ∧ (∀ r, ¬ sys.sm.uses h r) := by
  have hs : invOk (run (signal Nat MaskSystem.twoRegs) MaskSystem.caseUses 4 (startOf MaskSystem.allOn Signal.init) invActs)
    ([.act .wait, .act (.poll 7), .act .go] ++ .m (.reg 7) :: [.act .go, .m (.read none), .act (.write 0 (some 42)), .m (.stored 42), .act (.wake 0), .m (.woke 7)]) = true := by decide +kernel
  unfold invOk at hs
  have hwf : SourceMask.WellFormed MaskSystem.twoRegs.sm := MaskSystem.case_wf (by decide) (by simp) (by simp) (by simp)
  split at hs
  · next tr s hr =>
    simp only [Bool.and_eq_true, decide_eq_true_eq] at hs
    obtain ⟨⟨⟨h1, h2⟩, h3⟩, h4⟩ := hs
    obtain ⟨hX, hI⟩ := run_sound (c := signal Nat MaskSystem.twoRegs) MaskSystem.case_uses MaskSystem.case_small invActs idle_of hr
    split at h4
    · next tr2 s3 hr2 =>
      rw [decide_eq_true_eq] at h4
      subst h4
      have hX2 := (run_sound (c := signal Nat MaskSystem.twoRegs) MaskSystem.case_uses MaskSystem.case_small _ hI hr2).1
      refine ⟨MaskSystem.twoRegs, MaskSystem.allOn, hwf, _, s, s3, tr, [.act .wait, .act (.poll 7), .act .go], [.act .go, .m (.read none), .act (.write 0 (some 42)), .m (.stored 42), .act (.wake 0), .m (.woke 7)], _, 2, 7, 0, [7], 1, rfl, ?_, ?_, ?_,
        { start := start_of _ _, run1 := ⟨_, hX⟩, task := rfl, mem := by simp, prio := by decide, since := ⟨[.ex 2 (.ok 7 5), .ex 2 (.started 7 5)], h1, by simp, by simp⟩, idle := noCall_thread hwf rfl (start_of _ _) hX h2 h3, run2 := hX2, notPolled := by simp, notCompleted := by simp, noBad := by intro t'; rw [h1]; simp }, by simp, by simp, by simp, by decide, ?_⟩
      · intro t ht
        simp only [MaskSystem.twoRegs, MaskSystem.caseCfg] at ht ⊢
        by_cases e1 : t = 1
        · subst e1; exact ⟨40, rfl, by decide⟩
        · by_cases e2 : t = 2
          · subst e2; exact ⟨5, rfl, by decide⟩
          · by_cases e3 : t = 3
            · subst e3; exact ⟨6, rfl, by decide⟩
            · simp [e1, e2, e3] at ht
      · intro p q n h1 h2
        simp only [MaskSystem.twoRegs, MaskSystem.caseCfg, List.mem_cons, Prod.mk.injEq, List.not_mem_nil, or_false] at h1 h2
        omega
      · intro d d' ts ts' t h h' ht ht'
        exact demo_one h h' ht ht'
      · rintro r ⟨-, h | h⟩ <;> cases h
    · cases h4
  · cases hs

end Verif.MaskSync
