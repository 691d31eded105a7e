import Verif.System.Props

/-!
# Executable version of `Verif.System`, for concrete executions

`next` computes a step; `next_sound` proves that what it computes is a step of the relation. Used for counterexamples and non-vacuity only; nothing is claimed about it beyond soundness.
-/

namespace Verif.System

open Verif

/-- one step of `Verif.Srp` without locks -/
def srpNext (c : Srp.Cfg) (s : Srp.St) : Srp.Act → Option Srp.St
  | .irq t =>
    match Srp.top s.stack with
    | some cur => if 1 ≤ c.prio t ∧ Srp.admits c.bits s.bp s.pm (c.prio cur) (c.prio t) then some { s with stack := .enter t :: s.stack } else none
    | none => none
  | .readInitial =>
    match s.stack with
    | .enter t :: rest => some { s with stack := .body t (if c.prio t = 1 then none else some s.bp) :: rest }
    | _ => none
  | .lock _ => none
  | .userCs => if Srp.inCode s.stack = true then some { s with stack := .cs0 none s.pm :: s.stack } else none
  | .raise =>
    match s.stack with
    | .cs0 r m :: rest => some { s with stack := .cs r m :: rest, pm := true }
    | _ => none
  | .unlock =>
    match s.stack with
    | .cs _ m :: rest => some { s with stack := rest, pm := m }
    | _ => none
  | .finish =>
    match s.stack with
    | .body t none :: rest => if 1 ≤ c.prio t then some { s with stack := .leave t :: rest, bp := 0 } else none
    | .body t (some i) :: rest => some { s with stack := .leave t :: rest, bp := i }
    | _ => none
  | .ret =>
    match s.stack with
    | .leave _ :: rest => some { s with stack := rest }
    | _ => none

theorem srpNext_sound {c : Srp.Cfg} {s s' : Srp.St} {a : Srp.Act} (h : srpNext c s a = some s') : Srp.Step c s a s' := by
  cases a with
  | irq t =>
    simp only [srpNext] at h
    split at h
    · next cur ht =>
      split at h
      · next hc => cases h; exact .irq t cur ht hc.1 hc.2
      · cases h
    · cases h
  | readInitial =>
    simp only [srpNext] at h
    split at h
    · next t rest hs => cases h; exact .readInitial t rest hs
    · cases h
  | lock r => cases h
  | userCs =>
    simp only [srpNext] at h
    split at h
    · next hc => cases h; exact .userCs hc
    · cases h
  | raise =>
    simp only [srpNext] at h
    split at h
    · next r m rest hs => cases h; exact .raiseCs r m rest hs
    · cases h
  | unlock =>
    simp only [srpNext] at h
    split at h
    · next r m rest hs => cases h; exact .unlockCs r m rest hs
    · cases h
  | finish =>
    simp only [srpNext] at h
    split at h
    · next t rest hs =>
      split at h
      · next hp => cases h; exact .finish1 t rest hs hp
      · cases h
    · next t i rest hs => cases h; exact .finish t i rest hs
    · cases h
  | ret =>
    simp only [srpNext] at h
    split at h
    · next t rest hs => cases h; exact .ret t rest hs
    · cases h

/-- Only the first `n` handlers exist. -/
structure Small (c : Cfg) (n : Nat) : Prop where
  prio : ∀ h, n ≤ h → c.srp.prio h = 0
  tasks : ∀ h, n ≤ h → c.tasks h = none

/-- nobody calls `spawn` of something that is not a task -/
def Idle (c : Cfg) (s : St) : Prop := ∀ d, c.tasks d = none → ∀ i, (s.ex d).pc i = .idle

def takeableB (c : Cfg) (s : St) (h : Nat) : Bool :=
  match Srp.top s.m.stack with
  | some cur => decide (1 ≤ c.srp.prio h) && pended c s h && decide (Srp.admits c.srp.bits s.m.bp s.m.pm (c.srp.prio cur) (c.srp.prio h))
  | none => false

theorem takeable_iff {c : Cfg} {s : St} {h : Nat} : takeable c s h ↔ takeableB c s h = true := by
  unfold takeable takeableB
  cases ht : Srp.top s.m.stack with
  | none => simp
  | some cur => simp [and_assoc]

def quietB (c : Cfg) (n : Nat) (s : St) : Bool := (List.range n).all fun h => !takeableB c s h

theorem quiet_of {c : Cfg} {n : Nat} {s : St} (hn : Small c n) (h : quietB c n s = true) : quiet c s := by
  intro h' ht
  by_cases hlt : h' < n
  · have := List.all_eq_true.1 h h' (List.mem_range.2 hlt)
    rw [takeable_iff.1 ht] at this
    cases this
  · have := ht.1
    rw [hn.prio h' (Nat.le_of_not_lt hlt)] at this
    omega

def bestB (c : Cfg) (n : Nat) (s : St) (h : Nat) : Bool := (List.range n).all fun h' => !takeableB c s h' || decide (c.srp.prio h' ≤ c.srp.prio h)

theorem best_of {c : Cfg} {n : Nat} {s : St} {h : Nat} (hn : Small c n) (hb : bestB c n s h = true) : ∀ h', takeable c s h' → c.srp.prio h' ≤ c.srp.prio h := by
  intro h' ht
  by_cases hlt : h' < n
  · have := List.all_eq_true.1 hb h' (List.mem_range.2 hlt)
    rw [takeable_iff.1 ht] at this
    simpa using this
  · rw [hn.prio h' (Nat.le_of_not_lt hlt)]; omega

def noCallB (n : Nat) (s : St) : Bool := (List.range n).all fun d => decide ((s.ex d).pc (depth s.m.stack) = .idle)

theorem noCall_of {c : Cfg} {n : Nat} {s : St} (hn : Small c n) (hi : Idle c s) (h : noCallB n s = true) : noCall s := by
  intro d
  by_cases hlt : d < n
  · simpa using List.all_eq_true.1 h d (List.mem_range.2 hlt)
  · exact hi d (hn.tasks d (Nat.le_of_not_lt hlt)) _

def userCodeB (c : Cfg) (s : St) : Bool :=
  Srp.inCode s.m.stack &&
    match Srp.top s.m.stack with
    | some h =>
      match c.tasks h, (s.ex h).d with
      | some _, .body _ _ => true
      | some _, _ => false
      | none, _ => true
    | none => true

theorem userCode_of {c : Cfg} {s : St} (h : userCodeB c s = true) : userCode c s := by
  unfold userCodeB at h
  rw [Bool.and_eq_true] at h
  refine ⟨h.1, fun k ts hk ht => ?_⟩
  have h2 := h.2
  rw [hk] at h2
  simp only [ht] at h2
  split at h2
  · next hb => exact ⟨_, _, hb⟩
  · cases h2
  · next he => cases he

def finishB (c : Cfg) (s : St) : Bool :=
  match Srp.top s.m.stack with
  | some h =>
    match c.tasks h with
    | some _ => decide ((s.ex h).d = .idle)
    | none => true
  | none => true

theorem finish_of {c : Cfg} {s : St} (h : finishB c s = true) : ∀ k ts, Srp.top s.m.stack = some k → c.tasks k = some ts → (s.ex k).d = .idle := by
  intro k ts hk ht
  unfold finishB at h
  rw [hk] at h
  simp only [ht] at h
  simpa using h

def isIrq : Srp.Act → Bool
  | .irq _ => true
  | _ => false

def needsUser : Srp.Act → Bool
  | .lock _ | .userCs => true
  | _ => false

/-- one step of the machine -/
def next (c : Cfg) (n : Nat) (s : St) : Act → Option (List (Nat × Executor.Ev) × St)
  | .hw h => if c.tasks h = none then some ([], { s with pend := upd s.pend h true }) else none
  | .unhw h => if c.tasks h = none then some ([], { s with pend := upd s.pend h false }) else none
  | .irq h =>
    if takeableB c s h && bestB c n s h then
      match srpNext c.srp s.m (.irq h), c.tasks h with
      | some m', none => some ([], { s with m := m', pend := upd s.pend h false })
      | some m', some ts => some ([], { s with m := m', ex := upd s.ex h { s.ex h with irq := false, d := .run ts } })
      | none, _ => none
    else none
  | .code a =>
    if quietB c n s && noCallB n s && !isIrq a && (!needsUser a || userCodeB c s) && (decide (a ≠ .finish) || finishB c s) then
      match srpNext c.srp s.m a with
      | some m' => some ([], { s with m := m' })
      | none => none
    else none
  | .spawn d u a =>
    if quietB c n s && noCallB n s && userCodeB c s then
      match c.tasks d with
      | some ts =>
        match Executor.step (c.exec d ts) (s.ex d) (.callSpawn (depth s.m.stack) u a) with
        | some (e', ev) => some (ev.map (d, ·), { s with ex := upd s.ex d e' })
        | none => none
      | none => none
    else none
  | .wake d u =>
    if quietB c n s && noCallB n s && userCodeB c s then
      match c.tasks d with
      | some ts =>
        match Executor.step (c.exec d ts) (s.ex d) (.callWake (depth s.m.stack) u) with
        | some (e', ev) => some (ev.map (d, ·), { s with ex := upd s.ex d e' })
        | none => none
      | none => none
    else none
  | .call d =>
    if quietB c n s && userCodeB c s then
      match c.tasks d with
      | some ts =>
        match Executor.step (c.exec d ts) (s.ex d) (.thr (depth s.m.stack)) with
        | some (e', ev) => some (ev.map (d, ·), { s with ex := upd s.ex d e' })
        | none => none
      | none => none
    else none
  | .disp h r =>
    if quietB c n s && noCallB n s then
      match s.m.stack, c.tasks h with
      | .body h' _ :: _, some ts =>
        if h' = h ∧ ((s.ex h).d ≠ .idle ∨ c.srp.prio h = 0) then
          match Executor.step (c.exec h ts) (s.ex h) (.disp r) with
          | some (e', ev) => some (ev.map (h, ·), { s with ex := upd s.ex h e' })
          | none => none
        else none
      | _, _ => none
    else none

theorem next_sound {c : Cfg} {n : Nat} {s s' : St} {a : Act} {ev : List (Nat × Executor.Ev)} (hn : Small c n) (hi : Idle c s) (h : next c n s a = some (ev, s')) : Step c s a ev s' := by
  cases a with
  | hw x =>
    simp only [next] at h
    split at h
    · next ht => cases h; exact .hw x ht
    · cases h
  | unhw x =>
    simp only [next] at h
    split at h
    · next ht => cases h; exact .unhw x ht
    · cases h
  | irq x =>
    simp only [next] at h
    split at h
    · next hc =>
      rw [Bool.and_eq_true] at hc
      split at h
      · next m' hm ht => cases h; exact .irqHw x m' ht (takeable_iff.2 hc.1) (best_of hn hc.2) (srpNext_sound hm)
      · next m' ts hm ht => cases h; exact .irqDisp x ts m' ht (takeable_iff.2 hc.1) (best_of hn hc.2) (srpNext_sound hm)
      · cases h
    · cases h
  | code x =>
    simp only [next] at h
    split at h
    · next hc =>
      simp only [Bool.and_eq_true] at hc
      obtain ⟨⟨⟨⟨h1, h2⟩, h3⟩, h4⟩, h5⟩ := hc
      split at h
      · next m' hm =>
        cases h
        refine .code x m' (quiet_of hn h1) (noCall_of hn hi h2) (srpNext_sound hm) (fun t e => by rw [e] at h3; cases h3) (fun hu => ?_) (fun hf => ?_)
        · apply userCode_of
          rcases hu with ⟨r, rfl⟩ | rfl <;> simpa [needsUser] using h4
        · apply finish_of
          subst hf
          simpa using h5
      · cases h
    · cases h
  | spawn d u x =>
    simp only [next] at h
    split at h
    · next hc =>
      simp only [Bool.and_eq_true] at hc
      obtain ⟨⟨h1, h2⟩, h3⟩ := hc
      split at h
      · next ts ht =>
        split at h
        · next e' ev' hs => cases h; exact .spawn d ts u x e' ev' (quiet_of hn h1) (noCall_of hn hi h2) (userCode_of h3) ht hs
        · cases h
      · cases h
    · cases h
  | wake d u =>
    simp only [next] at h
    split at h
    · next hc =>
      simp only [Bool.and_eq_true] at hc
      obtain ⟨⟨h1, h2⟩, h3⟩ := hc
      split at h
      · next ts ht =>
        split at h
        · next e' ev' hs => cases h; exact .wake d ts u e' ev' (quiet_of hn h1) (noCall_of hn hi h2) (userCode_of h3) ht hs
        · cases h
      · cases h
    · cases h
  | call d =>
    simp only [next] at h
    split at h
    · next hc =>
      simp only [Bool.and_eq_true] at hc
      obtain ⟨h1, h3⟩ := hc
      split at h
      · next ts ht =>
        split at h
        · next e' ev' hs => cases h; exact .call d ts e' ev' (quiet_of hn h1) (userCode_of h3) ht hs
        · cases h
      · cases h
    · cases h
  | disp x r =>
    simp only [next] at h
    split at h
    · next hc =>
      simp only [Bool.and_eq_true] at hc
      obtain ⟨h1, h2⟩ := hc
      split at h
      · next x' i rest ts hst ht =>
        split at h
        · next hcond =>
          obtain ⟨rfl, hr⟩ := hcond
          split at h
          · next e' ev' hs => cases h; exact .disp _ i rest ts r e' ev' (quiet_of hn h1) (noCall_of hn hi h2) hst ht hr hs
          · cases h
        · cases h
      · cases h
    · cases h

theorem idle_upd {c : Cfg} {s : St} (hi : Idle c s) {d : Nat} {ts : List Nat} (hd : c.tasks d = some ts) (e : Executor.St) (d' : Nat) (hn : c.tasks d' = none) (i : Nat) : (upd s.ex d e d').pc i = .idle := by
  have : d' ≠ d := fun h => by rw [h, hd] at hn; cases hn
  simp only [upd, if_neg this]
  exact hi d' hn i

theorem idle_step {c : Cfg} {s s' : St} {a : Act} {ev : List (Nat × Executor.Ev)} (hi : Idle c s) (h : Step c s a ev s') : Idle c s' := by
  intro d' hn i
  cases h with
  | irqDisp h ts m' ht => exact idle_upd hi ht _ d' hn i
  | spawn d ts u a e' ev hq hc hu hd => exact idle_upd hi hd _ d' hn i
  | wake d ts u e' ev hq hc hu hd => exact idle_upd hi hd _ d' hn i
  | call d ts e' ev hq hu hd => exact idle_upd hi hd _ d' hn i
  | disp h i' rest ts r e' ev hq hc hst hd => exact idle_upd hi hd _ d' hn i
  | _ => exact hi d' hn i

/-- several steps -/
def run (c : Cfg) (n : Nat) : St → List Act → Option (List (Nat × Executor.Ev) × St)
  | s, [] => some ([], s)
  | s, a :: as =>
    match next c n s a with
    | some (ev, s1) =>
      match run c n s1 as with
      | some (tr, s2) => some (ev ++ tr, s2)
      | none => none
    | none => none

theorem run_sound {c : Cfg} {n : Nat} (hn : Small c n) : ∀ (as : List Act) {s s' : St} {tr : List (Nat × Executor.Ev)}, Idle c s → run c n s as = some (tr, s') → Exec c s as tr s' ∧ Idle c s'
  | [], s, s', tr, hi, h => by cases h; exact ⟨.nil _, hi⟩
  | a :: as, s, s', tr, hi, h => by
    simp only [run] at h
    split at h
    · next ev s1 h1 =>
      split at h
      · next tr' s2 h2 =>
        cases h
        have hs := next_sound hn hi h1
        obtain ⟨k1, k2⟩ := run_sound hn as (idle_step hi hs) h2
        exact ⟨Exec.trans (.snoc (.nil _) hs) k1, k2⟩
      · cases h
    · cases h

theorem demo_small : Small demo 3 := by
  refine ⟨fun h hh => ?_, fun h hh => ?_⟩
  · have e1 : h ≠ 1 := by omega
    have e2 : h ≠ 2 := by omega
    simp [demo, e1, e2]
  · have e1 : h ≠ 1 := by omega
    simp [demo, e1]

/-- the thread is inside its call of `spawn`; handler 2 preempts it and calls `spawn` of the same task, and returns; the thread's call goes on; the dispatcher is taken and polls the task -/
def nestedCalls : List Act :=
  [.spawn 1 7 5, .call 1, .hw 2, .irq 2, .code .readInitial, .spawn 1 7 6, .call 1, .code .finish, .code .ret, .call 1, .call 1, .call 1, .irq 1, .code .readInitial, .disp 1 true, .disp 1 true, .disp 1 true]

/-- Calls nest: a handler that preempts a caller of `spawn` in the middle of the call can itself call `spawn` of the same task. -/
example : ∃ s tr, Exec demo demoStart nestedCalls tr s ∧ tr = [(1, .ok 7 5), (1, .err 7 6), (1, .started 7 5), (1, .polled 7)] := by
  have hs : (match run demo 3 demoStart nestedCalls with | some (tr, _) => decide (tr = [(1, .ok 7 5), (1, .err 7 6), (1, .started 7 5), (1, .polled 7)]) | none => false) = true := by decide +kernel
  split at hs
  · next tr s h => exact ⟨s, tr, (run_sound demo_small _ (fun _ _ _ => rfl) h).1, of_decide_eq_true hs⟩
  · cases hs

end Verif.System
