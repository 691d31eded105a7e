import Verif.EspSystem.Props

/-!
# Executable version of `Verif.EspSystem`, for concrete executions

`next` computes a step; `next_sound` proves that what it computes is a step of the relation. Used for counterexamples and non-vacuity only; nothing is claimed about it beyond soundness.
-/

namespace Verif.EspSystem

open Verif

/-- one step of `Verif.Esp32`; `u` decides which task uses which resource -/
def hwNext (c : Esp32.Cfg) (u : Nat → Nat → Bool) (s : Esp32.St) : Esp32.Act → Option Esp32.St
  | .irq t => if decide (1 ≤ c.prio t) && !s.off && decide (s.thr ≤ c.prio t) then some { s with stack := .enter t s.thr :: s.stack, thr := c.prio t + 1 } else none
  | .readInitial =>
    match s.stack with
    | .enter t prev :: rest => some { s with stack := .body t prev (if c.prio t = 1 then none else some s.thr) :: rest }
    | _ => none
  | .lock r =>
    match Esp32.top s.stack with
    | some t =>
      if Esp32.inCode s.stack && u t r then
        if c.ceil r = 15 then some { s with stack := .cs0 (some r) s.off :: s.stack } else some { s with stack := .lk0 r s.thr :: s.stack }
      else none
    | none => none
  | .userCs => if Esp32.inCode s.stack = true then some { s with stack := .cs0 none s.off :: s.stack } else none
  | .raise =>
    match s.stack with
    | .lk0 r cur :: rest => some { s with stack := .lk r cur :: rest, thr := c.ceil r + 1 }
    | .cs0 r m :: rest => some { s with stack := .cs r m :: rest, off := true }
    | _ => none
  | .unlock =>
    match s.stack with
    | .lk _ cur :: rest => some { s with stack := rest, thr := cur }
    | .cs _ m :: rest => some { s with stack := rest, off := m }
    | _ => none
  | .finish =>
    match s.stack with
    | .body t prev none :: rest => if 1 ≤ c.prio t then some { s with stack := .leave t prev :: rest, thr := 1 } else none
    | .body t prev (some i) :: rest => some { s with stack := .leave t prev :: rest, thr := i }
    | _ => none
  | .ret =>
    match s.stack with
    | .leave _ prev :: rest => some { s with stack := rest, thr := prev }
    | _ => none

theorem hwNext_sound {c : Esp32.Cfg} {u : Nat → Nat → Bool} (hu : ∀ t r, u t r = true → c.uses t r) {s s' : Esp32.St} {a : Esp32.Act} (h : hwNext c u s a = some s') : Esp32.Step c s a s' := by
  cases a with
  | irq t =>
    simp only [hwNext] at h
    split at h
    · next hc =>
      simp only [Bool.and_eq_true, decide_eq_true_eq, Bool.not_eq_true'] at hc
      cases h; exact .irq t hc.1.1 hc.1.2 hc.2
    · cases h
  | readInitial =>
    simp only [hwNext] at h
    split at h
    · next t prev rest hs => cases h; exact .readInitial t prev rest hs
    · cases h
  | lock r =>
    simp only [hwNext] at h
    split at h
    · next t ht =>
      split at h
      · next hc =>
        rw [Bool.and_eq_true] at hc
        split at h
        · next hr => cases h; exact .lockCs t r ht hc.1 (hu _ _ hc.2) hr
        · next hr => cases h; exact .lock t r ht hc.1 (hu _ _ hc.2) hr
      · cases h
    · cases h
  | userCs =>
    simp only [hwNext] at h
    split at h
    · next hc => cases h; exact .userCs hc
    · cases h
  | raise =>
    simp only [hwNext] at h
    split at h
    · next r cur rest hs => cases h; exact .raise r cur rest hs
    · next r m rest hs => cases h; exact .raiseCs r m rest hs
    · cases h
  | unlock =>
    simp only [hwNext] at h
    split at h
    · next r cur rest hs => cases h; exact .unlock r cur rest hs
    · next r m rest hs => cases h; exact .unlockCs r m rest hs
    · cases h
  | finish =>
    simp only [hwNext] at h
    split at h
    · next t prev rest hs =>
      split at h
      · next hp => cases h; exact .finish1 t prev rest hs hp
      · cases h
    · next t prev i rest hs => cases h; exact .finish t prev i rest hs
    · cases h
  | ret =>
    simp only [hwNext] at h
    split at h
    · next t prev rest hs => cases h; exact .ret t prev rest hs
    · cases h

/-- Only the first `n` handlers exist. -/
structure Small (c : Cfg) (n : Nat) : Prop where
  prio : ∀ h, n ≤ h → c.hw.prio h = 0
  tasks : ∀ h, n ≤ h → c.tasks h = none

/-- nobody calls `spawn` of something that is not a task -/
def Idle (c : Cfg) (s : St) : Prop := ∀ d, c.tasks d = none → ∀ i, (s.ex d).pc i = .idle

def takeableB (c : Cfg) (s : St) (h : Nat) : Bool := decide (1 ≤ c.hw.prio h) && pended c s h && !s.m.off && decide (s.m.thr ≤ c.hw.prio h)

theorem takeable_iff {c : Cfg} {s : St} {h : Nat} : takeable c s h ↔ takeableB c s h = true := by
  simp [takeable, takeableB, and_assoc]

def quietB (c : Cfg) (n : Nat) (s : St) : Bool := (List.range n).all fun h => !takeableB c s h

theorem quiet_of {c : Cfg} {n : Nat} {s : St} (hn : Small c n) (h : quietB c n s = true) : quiet c s := by
  intro h' ht
  by_cases hlt : h' < n
  · have := List.all_eq_true.1 h h' (List.mem_range.2 hlt)
    rw [takeable_iff.1 ht] at this
    cases this
  · have := ht.1
    rw [hn.prio h' (Nat.le_of_not_lt hlt)] at this
    omega

def bestB (c : Cfg) (n : Nat) (s : St) (h : Nat) : Bool := (List.range n).all fun h' => !takeableB c s h' || decide (c.hw.prio h' ≤ c.hw.prio h)

theorem best_of {c : Cfg} {n : Nat} {s : St} {h : Nat} (hn : Small c n) (hb : bestB c n s h = true) : ∀ h', takeable c s h' → c.hw.prio h' ≤ c.hw.prio h := by
  intro h' ht
  by_cases hlt : h' < n
  · have := List.all_eq_true.1 hb h' (List.mem_range.2 hlt)
    rw [takeable_iff.1 ht] at this
    simpa using this
  · rw [hn.prio h' (Nat.le_of_not_lt hlt)]; omega

def noCallB (n : Nat) (s : St) : Bool := (List.range n).all fun d => decide ((s.ex d).pc (depth s.m.stack) = .idle)

theorem noCall_of {c : Cfg} {n : Nat} {s : St} (hn : Small c n) (hi : Idle c s) (h : noCallB n s = true) : noCall s := by
  intro d
  by_cases hlt : d < n
  · simpa using List.all_eq_true.1 h d (List.mem_range.2 hlt)
  · exact hi d (hn.tasks d (Nat.le_of_not_lt hlt)) _

def userCodeB (c : Cfg) (s : St) : Bool :=
  Esp32.inCode s.m.stack &&
    match Esp32.top s.m.stack with
    | some h =>
      match c.tasks h, (s.ex h).d with
      | some _, .body _ _ => true
      | some _, _ => false
      | none, _ => true
    | none => true

theorem userCode_of {c : Cfg} {s : St} (h : userCodeB c s = true) : userCode c s := by
  unfold userCodeB at h
  rw [Bool.and_eq_true] at h
  refine ⟨h.1, fun k ts hk ht => ?_⟩
  have h2 := h.2
  rw [hk] at h2
  simp only [ht] at h2
  split at h2
  · next hb => exact ⟨_, _, hb⟩
  · cases h2
  · next he => cases he

def finishB (c : Cfg) (s : St) : Bool :=
  match Esp32.top s.m.stack with
  | some h =>
    match c.tasks h with
    | some _ => decide ((s.ex h).d = .idle)
    | none => true
  | none => true

theorem finish_of {c : Cfg} {s : St} (h : finishB c s = true) : ∀ k ts, Esp32.top s.m.stack = some k → c.tasks k = some ts → (s.ex k).d = .idle := by
  intro k ts hk ht
  unfold finishB at h
  rw [hk] at h
  simp only [ht] at h
  simpa using h

def startB (c : Cfg) (s : St) : Bool :=
  match Esp32.top s.m.stack with
  | some h =>
    match c.tasks h with
    | some _ => !decide ((s.ex h).d = .idle)
    | none => true
  | none => true

theorem start_of {c : Cfg} {s : St} (h : startB c s = true) : ∀ k ts, Esp32.top s.m.stack = some k → c.tasks k = some ts → (s.ex k).d ≠ .idle := by
  intro k ts hk ht
  unfold startB at h
  rw [hk] at h
  simp only [ht] at h
  simpa using h

def isIrq : Esp32.Act → Bool
  | .irq _ => true
  | _ => false

def isRun : Esp32.Act → Bool
  | .readInitial => true
  | _ => false

def isFinish : Esp32.Act → Bool
  | .finish => true
  | _ => false

def needsUser : Esp32.Act → Bool
  | .lock _ | .userCs => true
  | _ => false

/-- one step of the machine -/
def next (c : Cfg) (u0 : Nat → Nat → Bool) (n : Nat) (s : St) : Act → Option (List (Nat × Executor.Ev) × St)
  | .hw h => if c.tasks h = none then some ([], { s with pend := upd s.pend h true }) else none
  | .unhw h => if c.tasks h = none then some ([], { s with pend := upd s.pend h false }) else none
  | .irq h =>
    if takeableB c s h && bestB c n s h then
      match hwNext c.hw u0 s.m (.irq h) with
      | some m' => some ([], { s with m := m' })
      | none => none
    else none
  | .unpend h =>
    if quietB c n s then
      match s.m.stack, c.tasks h with
      | .enter h' _ :: _, some ts => if h' = h ∧ (s.ex h).d = .idle then some ([], { s with ex := upd s.ex h { s.ex h with irq := false, d := .run ts } }) else none
      | _, _ => none
    else none
  | .code a =>
    if quietB c n s && noCallB n s && !isIrq a && (!needsUser a || userCodeB c s) && (!isRun a || startB c s) && (!isFinish a || finishB c s) then
      match hwNext c.hw u0 s.m a with
      | some m' => some ([], { s with m := m' })
      | none => none
    else none
  | .spawn d u a =>
    if quietB c n s && noCallB n s && userCodeB c s then
      match c.tasks d with
      | some ts =>
        match Executor.step (c.exec d ts) (s.ex d) (.callSpawn (depth s.m.stack) u a) with
        | some (e', ev) => some (ev.map (d, ·), { s with ex := upd s.ex d e' })
        | none => none
      | none => none
    else none
  | .wake d u =>
    if quietB c n s && noCallB n s && userCodeB c s then
      match c.tasks d with
      | some ts =>
        match Executor.step (c.exec d ts) (s.ex d) (.callWake (depth s.m.stack) u) with
        | some (e', ev) => some (ev.map (d, ·), { s with ex := upd s.ex d e' })
        | none => none
      | none => none
    else none
  | .call d =>
    if quietB c n s && userCodeB c s then
      match c.tasks d with
      | some ts =>
        match Executor.step (c.exec d ts) (s.ex d) (.thr (depth s.m.stack)) with
        | some (e', ev) => some (ev.map (d, ·), { s with ex := upd s.ex d e' })
        | none => none
      | none => none
    else none
  | .disp h r =>
    if quietB c n s && noCallB n s then
      match s.m.stack, c.tasks h with
      | .body h' _ _ :: _, some ts =>
        if h' = h ∧ ((s.ex h).d ≠ .idle ∨ c.hw.prio h = 0) then
          match Executor.step (c.exec h ts) (s.ex h) (.disp r) with
          | some (e', ev) => some (ev.map (h, ·), { s with ex := upd s.ex h e' })
          | none => none
        else none
      | _, _ => none
    else none

theorem next_sound {c : Cfg} {n : Nat} {s s' : St} {a : Act} {ev : List (Nat × Executor.Ev)} {u0 : Nat → Nat → Bool} (hu0 : ∀ t r, u0 t r = true → c.hw.uses t r) (hn : Small c n) (hi : Idle c s) (h : next c u0 n s a = some (ev, s')) : Step c s a ev s' := by
  cases a with
  | hw x =>
    simp only [next] at h
    split at h
    · next ht => cases h; exact .hw x ht
    · cases h
  | unhw x =>
    simp only [next] at h
    split at h
    · next ht => cases h; exact .unhw x ht
    · cases h
  | irq x =>
    simp only [next] at h
    split at h
    · next hc =>
      rw [Bool.and_eq_true] at hc
      split at h
      · next m' hm => cases h; exact .irq x m' (takeable_iff.2 hc.1) (best_of hn hc.2) (hwNext_sound hu0 hm)
      · cases h
    · cases h
  | unpend x =>
    simp only [next] at h
    split at h
    · next hc =>
      split at h
      · next x' prev rest ts hst ht =>
        split at h
        · next hcond =>
          obtain ⟨rfl, hr⟩ := hcond
          cases h; exact .unpend _ prev rest ts (quiet_of hn hc) hst ht hr
        · cases h
      · cases h
    · cases h
  | code x =>
    simp only [next] at h
    split at h
    · next hc =>
      simp only [Bool.and_eq_true] at hc
      obtain ⟨⟨⟨⟨⟨h1, h2⟩, h3⟩, h4⟩, h6⟩, h5⟩ := hc
      split at h
      · next m' hm =>
        cases h
        refine .code x m' (quiet_of hn h1) (noCall_of hn hi h2) (hwNext_sound hu0 hm) (fun t e => by rw [e] at h3; cases h3) (fun hu => ?_) (fun hr => ?_) (fun hf => ?_)
        · apply userCode_of
          rcases hu with ⟨r, rfl⟩ | rfl <;> simpa [needsUser] using h4
        · apply start_of
          subst hr
          simpa [isRun] using h6
        · apply finish_of
          subst hf
          simpa [isFinish] using h5
      · cases h
    · cases h
  | spawn d u x =>
    simp only [next] at h
    split at h
    · next hc =>
      simp only [Bool.and_eq_true] at hc
      obtain ⟨⟨h1, h2⟩, h3⟩ := hc
      split at h
      · next ts ht =>
        split at h
        · next e' ev' hs => cases h; exact .spawn d ts u x e' ev' (quiet_of hn h1) (noCall_of hn hi h2) (userCode_of h3) ht hs
        · cases h
      · cases h
    · cases h
  | wake d u =>
    simp only [next] at h
    split at h
    · next hc =>
      simp only [Bool.and_eq_true] at hc
      obtain ⟨⟨h1, h2⟩, h3⟩ := hc
      split at h
      · next ts ht =>
        split at h
        · next e' ev' hs => cases h; exact .wake d ts u e' ev' (quiet_of hn h1) (noCall_of hn hi h2) (userCode_of h3) ht hs
        · cases h
      · cases h
    · cases h
  | call d =>
    simp only [next] at h
    split at h
    · next hc =>
      simp only [Bool.and_eq_true] at hc
      obtain ⟨h1, h3⟩ := hc
      split at h
      · next ts ht =>
        split at h
        · next e' ev' hs => cases h; exact .call d ts e' ev' (quiet_of hn h1) (userCode_of h3) ht hs
        · cases h
      · cases h
    · cases h
  | disp x r =>
    simp only [next] at h
    split at h
    · next hc =>
      simp only [Bool.and_eq_true] at hc
      obtain ⟨h1, h2⟩ := hc
      split at h
      · next x' prev i rest ts hst ht =>
        split at h
        · next hcond =>
          obtain ⟨rfl, hr⟩ := hcond
          split at h
          · next e' ev' hs => cases h; exact .disp _ prev i rest ts r e' ev' (quiet_of hn h1) (noCall_of hn hi h2) hst ht hr hs
          · cases h
        · cases h
      · cases h
    · cases h

theorem idle_upd {c : Cfg} {s : St} (hi : Idle c s) {d : Nat} {ts : List Nat} (hd : c.tasks d = some ts) (e : Executor.St) (d' : Nat) (hn : c.tasks d' = none) (i : Nat) : (upd s.ex d e d').pc i = .idle := by
  have : d' ≠ d := fun h => by rw [h, hd] at hn; cases hn
  simp only [upd, if_neg this]
  exact hi d' hn i

theorem idle_step {c : Cfg} {s s' : St} {a : Act} {ev : List (Nat × Executor.Ev)} (hi : Idle c s) (h : Step c s a ev s') : Idle c s' := by
  intro d' hn i
  cases h with
  | unpend h prev rest ts hq hst ht => exact idle_upd hi ht _ d' hn i
  | spawn d ts u a e' ev hq hc hu hd => exact idle_upd hi hd _ d' hn i
  | wake d ts u e' ev hq hc hu hd => exact idle_upd hi hd _ d' hn i
  | call d ts e' ev hq hu hd => exact idle_upd hi hd _ d' hn i
  | disp h prev j rest ts r e' ev hq hc hst hd => exact idle_upd hi hd _ d' hn i
  | _ => exact hi d' hn i

/-- several steps -/
def run (c : Cfg) (u0 : Nat → Nat → Bool) (n : Nat) : St → List Act → Option (List (Nat × Executor.Ev) × St)
  | s, [] => some ([], s)
  | s, a :: as =>
    match next c u0 n s a with
    | some (ev, s1) =>
      match run c u0 n s1 as with
      | some (tr, s2) => some (ev ++ tr, s2)
      | none => none
    | none => none

theorem run_sound {c : Cfg} {n : Nat} {u0 : Nat → Nat → Bool} (hu0 : ∀ t r, u0 t r = true → c.hw.uses t r) (hn : Small c n) : ∀ (as : List Act) {s s' : St} {tr : List (Nat × Executor.Ev)}, Idle c s → run c u0 n s as = some (tr, s') → Exec c s as tr s' ∧ Idle c s'
  | [], s, s', tr, hi, h => by cases h; exact ⟨.nil _, hi⟩
  | a :: as, s, s', tr, hi, h => by
    simp only [run] at h
    split at h
    · next ev s1 h1 =>
      split at h
      · next tr' s2 h2 =>
        cases h
        have hs := next_sound hu0 hn hi h1
        obtain ⟨k1, k2⟩ := run_sound hu0 hn as (idle_step hi hs) h2
        exact ⟨Exec.trans (.snoc (.nil _) hs) k1, k2⟩
      · cases h
    · cases h

end Verif.EspSystem
