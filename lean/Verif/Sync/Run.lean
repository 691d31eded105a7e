import Verif.Sync.Props
import Verif.System.Run

/-!
# Executable version of `Verif.Sync`, and examples

`next` computes a step; `run_sound` proves that what `run` computes is an execution. Used to show that the hypotheses of the theorems are met.
-/

namespace Verif.Sync

open Verif

variable {S A E : Type}

/-- the dispatcher of a task -/
def dispOf (c : Cfg S A E) (n t : Nat) : Option Nat := (List.range n).find? fun d => match c.sys.tasks d with | some ts => decide (t ∈ ts) | none => false

/-- one step (an action that calls a waker of something else than a task is not computed) -/
def next (c : Cfg S A E) (n : Nat) (s : St S) : Act A → Option (List (Ev A E) × St S)
  | .sys a =>
    match System.next c.sys n s.y a with
    | some (ev, y') => some (ev.map fun x => .ex x.1 x.2, { s with y := y' })
    | none => none
  | .op a =>
    match c.m s.m a with
    | none => none
    | some (m', e) =>
      match called c e with
      | [] => if System.quietB c.sys n s.y && System.noCallB n s.y && System.userCodeB c.sys s.y then some (.act a :: e.map .m, { s with m := m' }) else none
      | [t] =>
        match dispOf c n t with
        | some d =>
          match System.next c.sys n s.y (.wake d t) with
          | some (_, y') => some (.act a :: e.map .m, { y := y', m := m' })
          | none => none
        | none => none
      | _ => none

theorem next_sound {c : Cfg S A E} {n : Nat} {s s' : St S} {a : Act A} {ev : List (Ev A E)} (hn : System.Small c.sys n) (hi : System.Idle c.sys s.y) (h : next c n s a = some (ev, s')) : Step c s a ev s' := by
  cases a with
  | sys a =>
    simp only [next] at h
    split at h
    · next ev' y' hs => cases h; exact .sys a ev' y' (System.next_sound hn hi hs)
    · cases h
  | op a =>
    simp only [next] at h
    split at h
    · cases h
    · next m' e hm =>
      split at h
      · next hw =>
        split at h
        · next hc =>
          simp only [Bool.and_eq_true] at hc
          cases h
          exact .op a m' e (System.quiet_of hn hc.1.1) (System.noCall_of hn hi hc.1.2) (System.userCode_of hc.2) hm (by rw [hw]; simp)
        · cases h
      · next t hw =>
        split at h
        · next d hd =>
          split at h
          · next ev' y' hs =>
            cases h
            have hd' := List.find?_some hd
            split at hd'
            · next ts hts => exact .wake a m' e d ts t ev' y' hm hw hts (of_decide_eq_true hd') (System.next_sound hn hi hs)
            · cases hd'
          · cases h
        · cases h
      · cases h

theorem idle_step {c : Cfg S A E} {s s' : St S} {a : Act A} {ev : List (Ev A E)} (hi : System.Idle c.sys s.y) (h : Step c s a ev s') : System.Idle c.sys s'.y := by
  cases h with
  | sys a ev y' h => exact System.idle_step hi h
  | op a m' e hq hc hu hm hw => exact hi
  | wake a m' e d ts t ev y' hm hw hd ht hy => exact System.idle_step hi hy

def run (c : Cfg S A E) (n : Nat) : St S → List (Act A) → Option (List (Ev A E) × St S)
  | s, [] => some ([], s)
  | s, a :: as =>
    match next c n s a with
    | some (ev, s1) =>
      match run c n s1 as with
      | some (tr, s2) => some (ev ++ tr, s2)
      | none => none
    | none => none

theorem run_sound {c : Cfg S A E} {n : Nat} (hn : System.Small c.sys n) : ∀ (as : List (Act A)) {s s' : St S} {tr : List (Ev A E)}, System.Idle c.sys s.y → run c n s as = some (tr, s') → Exec c s as tr s' ∧ System.Idle c.sys s'.y
  | [], s, s', tr, hi, h => by cases h; exact ⟨.nil _, hi⟩
  | a :: as, s, s', tr, hi, h => by
    simp only [run] at h
    split at h
    · next ev s1 h1 =>
      split at h
      · next tr' s2 h2 =>
        cases h
        have hs := next_sound hn hi h1
        obtain ⟨k1, k2⟩ := run_sound hn as (idle_step hi hs) h2
        exact ⟨Exec.trans (.snoc (.nil _) hs) k1, k2⟩
      · cases h
    · cases h

/-! ## Handlers that are not active are in no call -/

/-- only handlers on the stack are inside a call of `spawn` or of a waker -/
def CallsOn (s : System.St) : Prop := ∀ d j, j = 0 ∨ System.depth s.m.stack < j → (s.ex d).pc j = .idle

theorem depth_pos {c : Srp.Cfg} {l : List Srp.Rec} (ho : Srp.Ok c l) (h : Srp.inCode l = true) : 0 < System.depth l := by
  induction l with
  | nil => cases h
  | cons x l ih =>
    cases x with
    | body t i => simp [System.depth]
    | lk r c => obtain ⟨-, -, -, h2, h3⟩ := ho; exact ih h3 h2
    | cs r m => obtain ⟨-, -, h2, h3⟩ := ho; exact ih h3 h2
    | _ => cases h

theorem pc_call {c : Executor.Cfg} {s s1 : Executor.St} {a : Executor.Act} {e : List Executor.Ev} {i j : Nat} (h : Executor.step c s a = some (s1, e)) (ha : (∃ t x, a = .callSpawn i t x) ∨ (∃ t, a = .callWake i t) ∨ a = .thr i ∨ ∃ r, a = .disp r) (hj : j ≠ i) : s1.pc j = s.pc j := by
  rcases ha with ⟨t, x, rfl⟩ | ⟨t, rfl⟩ | rfl | ⟨r, rfl⟩
  · simp only [Executor.step] at h
    (repeat' split at h) <;> (try cases h) <;> simp [Executor.upd, hj]
  · simp only [Executor.step] at h
    (repeat' split at h) <;> (try cases h) <;> simp [Executor.upd, hj]
  · simp only [Executor.step, Executor.stepThr] at h
    (repeat' split at h) <;> (try cases h) <;> simp [Executor.upd, hj]
  · simp only [Executor.step, Executor.stepDisp] at h
    (repeat' split at h) <;> (try cases h) <;> rfl

theorem depth_code {c : Srp.Cfg} {m m' : Srp.St} {a : Srp.Act} (h : Srp.Step c m a m') : System.depth m.stack ≤ System.depth m'.stack + 1 := by
  cases h with
  | readInitial t rest hst => rw [hst]; simp [System.depth]
  | raise r cur rest hst => rw [hst]; simp [System.depth]
  | raiseCs r mm rest hst => rw [hst]; simp [System.depth]
  | unlock r cur rest hst => rw [hst]; simp [System.depth]
  | unlockCs r mm rest hst => rw [hst]; simp [System.depth]
  | finish1 t rest hst hp => rw [hst]; simp [System.depth]
  | finish t i rest hst => rw [hst]; simp [System.depth]
  | ret t rest hst => rw [hst]; simp [System.depth]
  | _ => simp [System.depth] <;> omega

theorem disp_pc {c : Executor.Cfg} {s s1 : Executor.St} {r : Bool} {e : List Executor.Ev} (h : Executor.step c s (.disp r) = some (s1, e)) : s1.pc = s.pc := by
  simp only [Executor.step, Executor.stepDisp] at h
  (repeat' split at h) <;> (try cases h) <;> rfl

theorem callsOn_step {c : System.Cfg} {s s' : System.St} {a : System.Act} {ev : List (Nat × Executor.Ev)} (hv : System.Inv c s) (hi : CallsOn s) (h : System.Step c s a ev s') : CallsOn s' := by
  have hcall : ∀ {d' ts' a e' ev}, System.userCode c s → Executor.step (c.exec d' ts') (s.ex d') a = some (e', ev) → ((∃ t x, a = .callSpawn (System.depth s.m.stack) t x) ∨ (∃ t, a = .callWake (System.depth s.m.stack) t) ∨ a = .thr (System.depth s.m.stack) ∨ ∃ r, a = .disp r) →
      CallsOn { s with ex := System.upd s.ex d' e' } := by
    intro d' ts' a e' ev hu hs ha d j hj
    have hpos := depth_pos hv.m.ok hu.1
    have hne : j ≠ System.depth s.m.stack := by
      simp only at hj
      omega
    by_cases e : d = d'
    · subst e; simp only [System.upd_same]; rw [pc_call hs ha hne]; exact hi d j hj
    · simp only [System.upd_ne _ _ e]; exact hi d j hj
  cases h with
  | hw h ht => exact hi
  | unhw h ht => exact hi
  | irqHw h m' ht hp hbest hm =>
    intro d j hj
    refine hi d j ?_
    have := System.irq_stack hm
    simp only [this, System.depth] at hj
    omega
  | irqDisp h ts m' ht hp hbest hm =>
    intro d j hj
    have := System.irq_stack hm
    simp only [this, System.depth] at hj
    by_cases e : d = h
    · subst e; simp only [System.upd_same]; exact hi d j (by omega)
    · simp only [System.upd_ne _ _ e]; exact hi d j (by omega)
  | code a m' hq hc hm hni hu hf =>
    intro d j hj
    by_cases e : j = System.depth s.m.stack
    · rw [e]; exact hc d
    · refine hi d j ?_
      have := depth_code hm
      simp only at hj
      omega
  | spawn d ts u a e' ev hq hc hu hd hs => exact hcall hu hs (.inl ⟨_, _, rfl⟩)
  | wake d ts u e' ev hq hc hu hd hs => exact hcall hu hs (.inr (.inl ⟨_, rfl⟩))
  | call d ts e' ev hq hu hd hs => exact hcall hu hs (.inr (.inr (.inl rfl)))
  | disp h i rest ts r e' ev hq hc hst hd hr hs =>
    intro d j hj
    by_cases e : d = h
    · subst e; simp only [System.upd_same]; rw [disp_pc hs]; exact hi d j hj
    · simp only [System.upd_ne _ _ e]; exact hi d j hj

theorem callsOn_exec {c : System.Cfg} (hwf : Srp.WellFormed c.srp) {s s' : System.St} {as : List System.Act} {tr : List (Nat × Executor.Ev)} (hv : System.Inv c s) (hi : CallsOn s) (h : System.Exec c s as tr s') : CallsOn s' := by
  induction h with
  | nil => exact hi
  | snoc h hs ih => exact callsOn_step (System.inv_exec hwf hv h) ih hs

/-- while the thread runs, only its own calls can be under way -/
theorem noCall_thread {c : Cfg S A E} (hwf : WellFormed c) {st s : St S} {tr0 tr : List (Ev A E)} {as : List (Act A)} (hst : Start c st tr0) (hx : Exec c st as tr s) (h1 : System.depth s.y.m.stack = 1) {d t : Nat} (hpc : (s.y.ex d).pc 1 = .idle) : Await.NoCall t (s.y.ex d) := by
  obtain ⟨bs, hy, -⟩ := sys_exec hx
  have := callsOn_exec hwf.srp (System.inv_start hwf.srp hwf.thread hst.y) (fun d j _ => hst.y.over d j) hy
  intro j
  have : (s.y.ex d).pc j = .idle := by
    by_cases e : j = 1
    · rw [e]; exact hpc
    · exact this d j (by omega)
  rw [this]; simp

/-! ## Example: dispatcher 1 (priority 1) polls task 7, handler 2 is a hardware task of priority 2, the thread is idle -/

theorem demo_one {d d' : Nat} {ts ts' : List Nat} {t : Nat} (h : System.demo.tasks d = some ts) (h' : System.demo.tasks d' = some ts') (_ : t ∈ ts) (_ : t ∈ ts') : d = d' := by
  simp only [System.demo] at h h'
  split at h
  · split at h'
    · omega
    · cases h'
  · cases h

/-- idle spawns task `t`, whose dispatcher `d` (alone with `t`) polls it; -/
def pollIt (d t : Nat) : List (Act A) :=
  [.sys (.spawn d t 5), .sys (.call d), .sys (.call d), .sys (.call d), .sys (.call d), .sys (.irq d), .sys (.code .readInitial), .sys (.disp d false), .sys (.disp d false), .sys (.disp d false)]

/-- the poll returns `Pending` and the dispatcher returns to idle; -/
def backFrom (d : Nat) : List (Act A) := [.sys (.disp d false), .sys (.disp d false), .sys (.code .finish), .sys (.code .ret)]

/-- the hardware task `h` is entered; -/
def enterHw (h : Nat) : List (Act A) := [.sys (.hw h), .sys (.irq h), .sys (.code .readInitial)]

/-- its call of the waker ends, and it returns. -/
def retHw (d : Nat) : List (Act A) := [.sys (.call d), .sys (.call d), .sys (.code .finish), .sys (.code .ret)]

def demoPoll : List (Act A) := pollIt 1 7
def demoBack : List (Act A) := backFrom 1
def demoHw : List (Act A) := enterHw 2
def demoRet : List (Act A) := retHw 1

/-- idle runs, nothing has been spawned -/
def startOf (m : S) : St S := { y := System.demoStart, m := m }

theorem start_of (c : Cfg S A E) : Start c (startOf c.m0) [] := ⟨⟨rfl, fun _ _ _ => ⟨[], [], by simp, rfl⟩, fun _ _ => rfl⟩, fun d ts hd => ⟨[], by simp, rfl⟩⟩

/-- `init` has spawned task 7 and written 1 to a signal -/
def initActs : List (Await.Act (Signal.Act Nat)) := [.ex (.callSpawn 0 7 5), .ex (.thr 0), .ex (.thr 0), .ex (.thr 0), .ex (.thr 0), .m 0 (.write 0 (some 1)), .m 0 (.wake 0)]
def initTr : List (Ev (Signal.Act Nat) (Signal.Ev Nat)) := [.ex 1 (.ok 7 5), .act (.write 0 (some 1)), .m (.stored 1), .act (.wake 0)]

/-- After such an `init` the application is in a state from which the theorems start: the value is in the signal, and the dispatcher of the task is pending. -/
example : ∃ s, Start (signal Nat System.demo) s initTr ∧ s.m.store = some 1 ∧ (s.y.ex 1).irq = true := by
  obtain ⟨x, hx, h1, h2, h3, h4⟩ : ∃ x, Await.exec ((signal Nat System.demo).await 1 [7]) (Await.init ((signal Nat System.demo).await 1 [7])) initActs = some (x, evP 1 initTr) ∧ x.m.store = some 1 ∧ x.ex.irq = true ∧ (∀ i, x.ex.pc i = .idle) ∧
      ∃ tr, Executor.exec (System.demo.exec 1 [7]) Executor.init [.callSpawn 0 7 5, .thr 0, .thr 0, .thr 0, .thr 0] = some (x.ex, tr) := by
    refine ⟨_, rfl, rfl, rfl, ?_, _, rfl⟩
    intro i; cases i <;> rfl
  have hd : ∀ {d ts}, System.demo.tasks d = some ts → d = 1 ∧ ts = [7] := by
    intro d ts h
    simp only [System.demo] at h
    split at h
    · next e => cases h; exact ⟨e, rfl⟩
    · cases h
  refine ⟨{ y := { System.demoStart with ex := fun d => if d = 1 then x.ex else Executor.init }, m := x.m }, ⟨⟨rfl, ?_, ?_⟩, ?_⟩, h1, h2⟩
  · intro d ts h
    obtain ⟨rfl, rfl⟩ := hd h
    obtain ⟨tr, h4⟩ := h4
    exact ⟨_, tr, by simp [System.callAct], h4⟩
  · intro d i
    by_cases e : d = 1
    · simp only [e, if_true]; exact h3 i
    · simp only [if_neg e]; rfl
  · intro d ts h
    obtain ⟨rfl, rfl⟩ := hd h
    exact ⟨initActs, by simp [initActs, initAct, System.callAct], hx⟩

theorem idle_of {c : System.Cfg} {m : S} : System.Idle c (startOf m).y := fun _ _ _ => rfl

theorem demo_wf {c : Cfg S A E} (hc : c.sys = System.demo) : WellFormed c := by
  refine ⟨by rw [hc]; exact System.demo_wf, by rw [hc]; rfl, ?_⟩
  intro d d' ts ts' t h h' ht ht'
  rw [hc] at h h'
  exact demo_one h h' ht ht'

/-- the run ends, with history `a`, poll of task `t`, `b`, and idle is at the processor (in no call); `f` holds of the state of the primitive -/
def runOk [DecidableEq A] [DecidableEq E] (d t : Nat) (f : S → Bool) (a b : List (Ev A E)) (x : Option (List (Ev A E) × St S)) : Bool :=
  match x with
  | some (tr, s) => decide (tr = a ++ .ex d (.polled t) :: b) && decide (System.depth s.y.m.stack = 1) && decide ((s.y.ex d).pc 1 = .idle) && decide (Srp.top s.y.m.stack = some 0) && f s.m
  | none => false

/-- what the examples check: the execution reaches a state in which the thread is at the processor, in no call, and nothing has been polled since `b` began -/
theorem run_waits [DecidableEq A] [DecidableEq E] {c : Cfg S A E} (hwf : WellFormed c) {n : Nat} (hn : System.Small c.sys n) {d t : Nat} {ts : List Nat} (htask : c.sys.tasks d = some ts) (hmem : t ∈ ts) (hprio : 1 ≤ c.sys.srp.prio d)
    {as : List (Act A)} {f : S → Bool} {a b : List (Ev A E)} (h : runOk d t f a b (run c n (startOf c.m0) as) = true) (ha : ∀ t', .ex d (.badPoll t') ∉ a) (hb : ∀ e, .ex d e ∉ b) :
    ∃ s tr, tr = a ++ .ex d (.polled t) :: b ∧ Waits c d t ts (startOf c.m0) s s [] tr [] b [] ∧ Srp.top s.y.m.stack = some 0 ∧ f s.m = true := by
  unfold runOk at h
  split at h
  · next tr s hr =>
    simp only [Bool.and_eq_true, decide_eq_true_eq] at h
    obtain ⟨⟨⟨⟨h1, h2⟩, h3⟩, h4⟩, h5⟩ := h
    have hX := (run_sound hn as idle_of hr).1
    refine ⟨s, tr, h1, ?_, h4, h5⟩
    exact {
      start := start_of c
      run1 := ⟨as, hX⟩
      task := htask
      mem := hmem
      prio := hprio
      since := ⟨a, by simpa using h1, hb _, hb _⟩
      idle := noCall_thread hwf (start_of c) hX h2 h3
      run2 := .nil _
      notPolled := by simp
      notCompleted := by simp
      noBad := by intro t'; rw [h1]; simp [ha t', hb] }
  · cases h

theorem demo_ok [DecidableEq A] [DecidableEq E] {c : Cfg S A E} (hc : c.sys = System.demo) {as : List (Act A)} {f : S → Bool} {a b : List (Ev A E)} (h : runOk 1 7 f a b (run c 3 (startOf c.m0) as) = true)
    (ha : ∀ t', .ex 1 (.badPoll t') ∉ a) (hb : ∀ e, .ex 1 e ∉ b) : ∃ s tr, tr = a ++ .ex 1 (.polled 7) :: b ∧ Waits c 1 7 [7] (startOf c.m0) s s [] tr [] b [] ∧ Srp.top s.y.m.stack = some 0 ∧ f s.m = true :=
  run_waits (demo_wf hc) (by rw [hc]; exact System.demo_small) (by rw [hc]; rfl) (List.mem_singleton.2 rfl) (by rw [hc]; decide) h ha hb

/-- task 7 awaits `wait()`; the hardware task writes 42 and returns to idle -/
def sigActs : List (Act (Signal.Act Nat)) := demoPoll ++ [.op .wait, .op (.poll 7), .op .go, .op .go] ++ demoBack ++ demoHw ++ [.op (.write 0 (some 42)), .op (.wake 0)] ++ demoRet

/-- The hypotheses of `C95_signal_returned` are met: idle is at the processor, and does not get to run before task 7 is polled. -/
example : ∃ s tr b1 b2, Waits (signal Nat System.demo) 1 7 [7] (startOf Signal.init) s s [] tr [] (b1 ++ .m (.reg 7) :: b2) [] ∧ (∀ w, .m (.reg w) ∉ b2) ∧ .act (.wake 0) ∈ b2 ∧ Srp.top s.y.m.stack = some 0 ∧ Preempts (signal Nat System.demo) 1 [7] s [] s := by
  obtain ⟨s, tr, -, hw, h0, -⟩ := demo_ok (c := signal Nat System.demo) rfl (f := fun _ => true) (as := sigActs) (a := [.ex 1 (.ok 7 5), .ex 1 (.started 7 5)])
    (b := [.act .wait, .act (.poll 7), .act .go] ++ .m (.reg 7) :: [.act .go, .m (.read none), .act (.write 0 (some 42)), .m (.stored 42), .act (.wake 0), .m (.woke 7)]) (by decide +kernel) (by simp) (by simp)
  exact ⟨s, tr, _, _, hw, by simp, by simp, h0, C95_signal_returned (demo_wf rfl) (i := 0) hw (by simp) (by simp)⟩

/-- task 7 awaits `changed()`; the hardware task writes 42 and returns to idle -/
def watchActs : List (Act (Watch.Act Nat)) := demoPoll ++ [.op .changed, .op (.poll 7), .op .go, .op .go, .op .go] ++ demoBack ++ demoHw ++ [.op (.write 0 42), .op (.wake 0)] ++ demoRet

example : ∃ s tr b1 b2, Waits (watch Nat System.demo) 1 7 [7] (startOf Watch.init) s s [] tr [] (b1 ++ .m (.reg 7) :: b2) [] ∧ (∀ w, .m (.reg w) ∉ b2) ∧ .act (.wake 0) ∈ b2 ∧ Srp.top s.y.m.stack = some 0 ∧ Preempts (watch Nat System.demo) 1 [7] s [] s := by
  obtain ⟨s, tr, -, hw, h0, -⟩ := demo_ok (c := watch Nat System.demo) rfl (f := fun _ => true) (as := watchActs) (a := [.ex 1 (.ok 7 5), .ex 1 (.started 7 5)])
    (b := [.act .changed, .act (.poll 7), .act .go] ++ .m (.reg 7) :: [.act .go, .act .go, .m (.copied none), .act (.write 0 42), .m (.stored 42), .act (.wake 0), .m (.woke 7)]) (by decide +kernel) (by simp) (by simp)
  exact ⟨s, tr, _, _, hw, by simp, by simp, h0, C95_watch_returned (demo_wf rfl) (i := 0) hw (by simp) (by simp)⟩

/-- task 7 awaits `recv()`; the hardware task sends 42 and returns to idle -/
def recvActs : List (Act (Channel.Act Nat)) :=
  demoPoll ++ [.op (.pollRecv 7), .op .goR, .op .goR, .op .goR] ++ demoBack ++ demoHw ++ [.op (.startTry 0 42), .op (.go 0), .op (.go 0), .op (.go 0), .op (.go 0), .op (.go 0), .op (.go 0)] ++ demoRet

example : ∃ s tr b1 b2, Waits (channel Nat 1 System.demo) 1 7 [7] (startOf (Channel.init 1)) s s [] tr [] (b1 ++ .m (.reg 7) :: b2) [] ∧ (∀ w, .m (.reg w) ∉ b2) ∧ .m (.sendOk 0) ∈ b2 ∧ Srp.top s.y.m.stack = some 0 ∧ Preempts (channel Nat 1 System.demo) 1 [7] s [] s := by
  obtain ⟨s, tr, -, hw, h0, -⟩ := demo_ok (c := channel Nat 1 System.demo) rfl (f := fun _ => true) (as := recvActs) (a := [.ex 1 (.ok 7 5), .ex 1 (.started 7 5)])
    (b := [.act (.pollRecv 7), .act .goR] ++ .m (.reg 7) :: [.act .goR, .act .goR, .m .recvPending, .act (.startTry 0 42), .m (.start 0 42), .act (.go 0), .act (.go 0), .act (.go 0), .act (.go 0), .act (.go 0), .m (.enq 0 42), .act (.go 0), .m (.wokeR 7), .m (.sendOk 0)])
    (by decide +kernel) (by simp) (by simp)
  exact ⟨s, tr, _, _, hw, by simp, by simp, h0, C95_recv_returned (demo_wf rfl) (i := 0) hw (by simp) (by simp)⟩

/-- task 7 awaits `access()` as client 1, while client 0 (idle) holds the access; the hardware task releases it and returns to idle -/
def accessActs : List (Act Arbiter.Act) := .op (.tryAccess 0) :: (demoPoll ++ [.op (.access 1), .op (.poll 1 7)] ++ demoBack ++ demoHw ++ [.op (.dropTok 0)] ++ demoRet)

example : ∃ s tr b1 b2, Waits (arbiter System.demo) 1 7 [7] (startOf Arbiter.init) s s [] tr [] (b1 ++ .act (.poll 1 7) :: b2) [] ∧ s.m.pc 1 = .fut ∧ Srp.top s.y.m.stack = some 0 ∧ Preempts (arbiter System.demo) 1 [7] s [] s := by
  obtain ⟨s, tr, htr, hw, h0, hf⟩ := demo_ok (c := arbiter System.demo) rfl (f := fun m => decide (m.pc 1 = .fut) && decide ((Arbiter.step m (.poll 1 7)).map Prod.snd = some [.acquired 1])) (as := accessActs)
    (a := [.act (.tryAccess 0), .m (.acquired 0), .ex 1 (.ok 7 5), .ex 1 (.started 7 5)]) (b := [.act (.access 1)] ++ .act (.poll 1 7) :: [.m (.waiting 1), .act (.dropTok 0), .m (.released 0), .m (.handed 1 7)]) (by decide +kernel) (by simp) (by simp)
  simp only [Bool.and_eq_true, decide_eq_true_eq, Option.map_eq_some_iff] at hf
  obtain ⟨hp, ⟨s', e⟩, hst, he⟩ := hf
  cases he
  exact ⟨s, tr, _, _, hw, hp, h0, C95_access_ready (demo_wf rfl) (i := 1) hw (by simp) hp (by intro w h; rw [htr] at h; simpa using h) ⟨s', hst⟩⟩

/-- task 7 awaits `send(42)` on a full channel of capacity 1; the hardware task receives and returns to idle -/
def sendActs : List (Act (Channel.Act Nat)) :=
  [.op (.clone 0 1), .op (.startTry 0 7), .op (.go 0), .op (.go 0), .op (.go 0), .op (.go 0), .op (.go 0), .op (.go 0)] ++ demoPoll ++ [.op (.startSend 1 42), .op (.poll 1 7)] ++ demoBack ++ demoHw ++
    [.op .startTryRecv, .op .goR, .op .goR, .op .goR] ++ demoRet

example : ∃ s tr b1 b2, Waits (channel Nat 1 System.demo) 1 7 [7] (startOf (Channel.init 1)) s s [] tr [] (b1 ++ .act (.poll 1 7) :: b2) [] ∧ s.m.snd 1 = .snd 42 ∧ Srp.top s.y.m.stack = some 0 ∧ Preempts (channel Nat 1 System.demo) 1 [7] s [] s := by
  obtain ⟨s, tr, htr, hw, h0, hf⟩ := demo_ok (c := channel Nat 1 System.demo) rfl
    (f := fun m => decide (m.snd 1 = .snd 42) && (match Channel.step 1 m (.poll 1 7) with | some (m', _) => decide (m'.snd 1 ≠ .snd 42) | none => false) && (Channel.step 1 m .goR).isNone) (as := sendActs)
    (a := [.act (.clone 0 1), .act (.startTry 0 7), .m (.start 0 7), .act (.go 0), .act (.go 0), .act (.go 0), .act (.go 0), .act (.go 0), .m (.enq 0 7), .act (.go 0), .m (.sendOk 0), .ex 1 (.ok 7 5), .ex 1 (.started 7 5)])
    (b := [.act (.startSend 1 42), .m (.start 1 42)] ++ .act (.poll 1 7) :: [.act .startTryRecv, .act .goR, .act .goR, .act .goR, .m (.wokeS 1 7), .m (.recvd 7)]) (by decide +kernel) (by simp) (by simp)
  simp only [Bool.and_eq_true, decide_eq_true_eq, Option.isNone_iff_eq_none] at hf
  obtain ⟨⟨hp, hq⟩, hr⟩ := hf
  split at hq
  · next m' e hst => exact ⟨s, tr, _, _, hw, hp, h0, C95_send_ready (demo_wf rfl) (i := 1) hw (by simp) hp (by intro w h; rw [htr] at h; simpa using h) ⟨m', e, hst, of_decide_eq_true hq⟩ hr⟩
  · cases hq

end Verif.Sync
