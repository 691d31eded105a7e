import Verif.MaskSystem.Props

/-!
# Executable version of `Verif.MaskSystem`, for concrete executions

`next` computes a step; `next_sound` proves that what it computes is a step of the relation. Used for counterexamples and non-vacuity only; nothing is claimed about it beyond soundness.
-/

namespace Verif.MaskSystem

open Verif

def admitsB (c : SourceMask.Cfg) (s : SourceMask.St) (cur t : Nat) : Bool :=
  !s.pm && decide (c.prio cur < c.prio t) &&
    match c.bind t with
    | some n => SourceMask.enabled s.en n
    | none => true

theorem admits_iffB {c : SourceMask.Cfg} {s : SourceMask.St} {cur t : Nat} : SourceMask.admits c s cur t ↔ admitsB c s cur t = true := by
  unfold SourceMask.admits admitsB
  cases hb : c.bind t <;> simp [and_assoc]

/-- one step of `Verif.SourceMask`; `u` decides which task uses which resource -/
def maskNext (c : SourceMask.Cfg) (u : Nat → Nat → Bool) (s : SourceMask.St) : SourceMask.Act → Option SourceMask.St
  | .irq t =>
    match SourceMask.top s.stack with
    | some cur => if admitsB c s cur t then some { s with stack := .body t :: s.stack } else none
    | none => none
  | .lock r =>
    match SourceMask.top s.stack with
    | some t =>
      if SourceMask.inCode s.stack && u t r then
        if c.ceil r ≥ 4 then some { s with stack := .cs0 (some r) s.pm :: s.stack } else some { s with stack := .rd r 0 (fun _ => 0#32) :: s.stack }
      else none
    | none => none
  | .userCs => if SourceMask.inCode s.stack = true then some { s with stack := .cs0 none s.pm :: s.stack } else none
  | .acc =>
    match s.stack with
    | .rd r i old :: rest => if i < SourceMask.nChunks c.irqs then some { s with stack := .rd r (i + 1) (SourceMask.guardUpd (c.m r i) old i (s.en i)) :: rest } else some { s with stack := .cl r 0 old :: rest }
    | .cl r i old :: rest =>
      if i < SourceMask.nChunks c.irqs then some { s with stack := .cl r (i + 1) old :: rest, en := SourceMask.guardUpd (c.m r i) s.en i (s.en i &&& ~~~(c.m r i)) } else some { s with stack := .lk r old :: rest }
    | .st r i old :: rest => if i < SourceMask.nChunks c.irqs then some { s with stack := .st r (i + 1) old :: rest, en := SourceMask.guardUpd (c.m r i) s.en i (s.en i ||| old i) } else some { s with stack := rest }
    | .cs0 r m :: rest => some { s with stack := .cs r m :: rest, pm := true }
    | _ => none
  | .unlock =>
    match s.stack with
    | .lk r old :: rest => some { s with stack := .st r 0 old :: rest }
    | .cs _ m :: rest => some { s with stack := rest, pm := m }
    | _ => none
  | .nvicMask _ => none
  | .ret =>
    match s.stack with
    | .body _ :: x :: rest => some { s with stack := x :: rest }
    | _ => none

theorem maskNext_sound {c : SourceMask.Cfg} {u : Nat → Nat → Bool} (hu : ∀ t r, u t r = true → c.uses t r) {s s' : SourceMask.St} {a : SourceMask.Act} (h : maskNext c u s a = some s') : SourceMask.Step c s a s' := by
  cases a with
  | irq t =>
    simp only [maskNext] at h
    split at h
    · next cur ht =>
      split at h
      · next hc => cases h; exact .irq t cur ht (admits_iffB.2 hc)
      · cases h
    · cases h
  | lock r =>
    simp only [maskNext] at h
    split at h
    · next t ht =>
      split at h
      · next hc =>
        rw [Bool.and_eq_true] at hc
        split at h
        · next hr => cases h; exact .lockCs t r ht hc.1 (hu _ _ hc.2) hr
        · next hr => cases h; exact .lock t r ht hc.1 (hu _ _ hc.2) hr
      · cases h
    · cases h
  | userCs =>
    simp only [maskNext] at h
    split at h
    · next hc => cases h; exact .userCs hc
    · cases h
  | acc =>
    simp only [maskNext] at h
    split at h
    · next r i old rest hs =>
      split at h
      · next hi => cases h; exact .rd r i old rest hs hi
      · next hi => cases h; exact .rdEnd r i old rest hs hi
    · next r i old rest hs =>
      split at h
      · next hi => cases h; exact .cl r i old rest hs hi
      · next hi => cases h; exact .clEnd r i old rest hs hi
    · next r i old rest hs =>
      split at h
      · next hi => cases h; exact .st r i old rest hs hi
      · next hi => cases h; exact .stEnd r i old rest hs hi
    · next r m rest hs => cases h; exact .raiseCs r m rest hs
    · cases h
  | unlock =>
    simp only [maskNext] at h
    split at h
    · next r old rest hs => cases h; exact .unlock r old rest hs
    · next r m rest hs => cases h; exact .unlockCs r m rest hs
    · cases h
  | nvicMask n => cases h
  | ret =>
    simp only [maskNext] at h
    split at h
    · next t x rest hs => cases h; exact .ret t _ hs (by simp)
    · cases h

/-- Only the first `n` handlers exist. -/
structure Small (c : Cfg) (n : Nat) : Prop where
  prio : ∀ h, n ≤ h → c.sm.prio h = 0
  tasks : ∀ h, n ≤ h → c.tasks h = none

/-- nobody calls `spawn` of something that is not a task -/
def Idle (c : Cfg) (s : St) : Prop := ∀ d, c.tasks d = none → ∀ i, (s.ex d).pc i = .idle

def takeableB (c : Cfg) (s : St) (h : Nat) : Bool :=
  match SourceMask.top s.m.stack with
  | some cur => decide (1 ≤ c.sm.prio h) && pended c s h && admitsB c.sm s.m cur h
  | none => false

theorem takeable_iff {c : Cfg} {s : St} {h : Nat} : takeable c s h ↔ takeableB c s h = true := by
  unfold takeable takeableB
  cases ht : SourceMask.top s.m.stack with
  | none => simp
  | some cur => simp [and_assoc, admits_iffB]

def quietB (c : Cfg) (n : Nat) (s : St) : Bool := (List.range n).all fun h => !takeableB c s h

theorem quiet_of {c : Cfg} {n : Nat} {s : St} (hn : Small c n) (h : quietB c n s = true) : quiet c s := by
  intro h' ht
  by_cases hlt : h' < n
  · have := List.all_eq_true.1 h h' (List.mem_range.2 hlt)
    rw [takeable_iff.1 ht] at this
    cases this
  · have := ht.1
    rw [hn.prio h' (Nat.le_of_not_lt hlt)] at this
    omega

def bestB (c : Cfg) (n : Nat) (s : St) (h : Nat) : Bool := (List.range n).all fun h' => !takeableB c s h' || decide (c.sm.prio h' ≤ c.sm.prio h)

theorem best_of {c : Cfg} {n : Nat} {s : St} {h : Nat} (hn : Small c n) (hb : bestB c n s h = true) : ∀ h', takeable c s h' → c.sm.prio h' ≤ c.sm.prio h := by
  intro h' ht
  by_cases hlt : h' < n
  · have := List.all_eq_true.1 hb h' (List.mem_range.2 hlt)
    rw [takeable_iff.1 ht] at this
    simpa using this
  · rw [hn.prio h' (Nat.le_of_not_lt hlt)]; omega

def noCallB (n : Nat) (s : St) : Bool := (List.range n).all fun d => decide ((s.ex d).pc (depth s.m.stack) = .idle)

theorem noCall_of {c : Cfg} {n : Nat} {s : St} (hn : Small c n) (hi : Idle c s) (h : noCallB n s = true) : noCall s := by
  intro d
  by_cases hlt : d < n
  · simpa using List.all_eq_true.1 h d (List.mem_range.2 hlt)
  · exact hi d (hn.tasks d (Nat.le_of_not_lt hlt)) _

def userCodeB (c : Cfg) (s : St) : Bool :=
  SourceMask.inCode s.m.stack &&
    match SourceMask.top s.m.stack with
    | some h =>
      match c.tasks h, (s.ex h).d with
      | some _, .body _ _ => true
      | some _, _ => false
      | none, _ => true
    | none => true

theorem userCode_of {c : Cfg} {s : St} (h : userCodeB c s = true) : userCode c s := by
  unfold userCodeB at h
  rw [Bool.and_eq_true] at h
  refine ⟨h.1, fun k ts hk ht => ?_⟩
  have h2 := h.2
  rw [hk] at h2
  simp only [ht] at h2
  split at h2
  · next hb => exact ⟨_, _, hb⟩
  · cases h2
  · next he => cases he

def finishB (c : Cfg) (s : St) : Bool :=
  match SourceMask.top s.m.stack with
  | some h =>
    match c.tasks h with
    | some _ => decide ((s.ex h).d = .idle)
    | none => true
  | none => true

theorem finish_of {c : Cfg} {s : St} (h : finishB c s = true) : ∀ k ts, SourceMask.top s.m.stack = some k → c.tasks k = some ts → (s.ex k).d = .idle := by
  intro k ts hk ht
  unfold finishB at h
  rw [hk] at h
  simp only [ht] at h
  simpa using h

def isIrq : SourceMask.Act → Bool
  | .irq _ | .nvicMask _ => true
  | _ => false

def isRet : SourceMask.Act → Bool
  | .ret => true
  | _ => false

def needsUser : SourceMask.Act → Bool
  | .lock _ | .userCs => true
  | _ => false

/-- one step of the machine -/
def next (c : Cfg) (u0 : Nat → Nat → Bool) (n : Nat) (s : St) : Act → Option (List (Nat × Executor.Ev) × St)
  | .hw h => if c.tasks h = none then some ([], { s with pend := upd s.pend h true }) else none
  | .unhw h => if c.tasks h = none then some ([], { s with pend := upd s.pend h false }) else none
  | .irq h =>
    if takeableB c s h && bestB c n s h then
      match maskNext c.sm u0 s.m (.irq h), c.tasks h with
      | some m', none => some ([], { s with m := m', pend := upd s.pend h false })
      | some m', some ts => some ([], { s with m := m', ex := upd s.ex h { s.ex h with irq := false, d := .run ts } })
      | none, _ => none
    else none
  | .code a =>
    if quietB c n s && noCallB n s && !isIrq a && (!needsUser a || userCodeB c s) && (!isRet a || finishB c s) then
      match maskNext c.sm u0 s.m a with
      | some m' => some ([], { s with m := m' })
      | none => none
    else none
  | .spawn d u a =>
    if quietB c n s && noCallB n s && userCodeB c s then
      match c.tasks d with
      | some ts =>
        match Executor.step (c.exec d ts) (s.ex d) (.callSpawn (depth s.m.stack) u a) with
        | some (e', ev) => some (ev.map (d, ·), { s with ex := upd s.ex d e' })
        | none => none
      | none => none
    else none
  | .wake d u =>
    if quietB c n s && noCallB n s && userCodeB c s then
      match c.tasks d with
      | some ts =>
        match Executor.step (c.exec d ts) (s.ex d) (.callWake (depth s.m.stack) u) with
        | some (e', ev) => some (ev.map (d, ·), { s with ex := upd s.ex d e' })
        | none => none
      | none => none
    else none
  | .call d =>
    if quietB c n s && userCodeB c s then
      match c.tasks d with
      | some ts =>
        match Executor.step (c.exec d ts) (s.ex d) (.thr (depth s.m.stack)) with
        | some (e', ev) => some (ev.map (d, ·), { s with ex := upd s.ex d e' })
        | none => none
      | none => none
    else none
  | .disp h r =>
    if quietB c n s && noCallB n s then
      match s.m.stack, c.tasks h with
      | .body h' :: _, some ts =>
        if h' = h ∧ ((s.ex h).d ≠ .idle ∨ c.sm.prio h = 0) then
          match Executor.step (c.exec h ts) (s.ex h) (.disp r) with
          | some (e', ev) => some (ev.map (h, ·), { s with ex := upd s.ex h e' })
          | none => none
        else none
      | _, _ => none
    else none

theorem next_sound {c : Cfg} {n : Nat} {s s' : St} {a : Act} {ev : List (Nat × Executor.Ev)} {u0 : Nat → Nat → Bool} (hu0 : ∀ t r, u0 t r = true → c.sm.uses t r) (hn : Small c n) (hi : Idle c s) (h : next c u0 n s a = some (ev, s')) : Step c s a ev s' := by
  cases a with
  | hw x =>
    simp only [next] at h
    split at h
    · next ht => cases h; exact .hw x ht
    · cases h
  | unhw x =>
    simp only [next] at h
    split at h
    · next ht => cases h; exact .unhw x ht
    · cases h
  | irq x =>
    simp only [next] at h
    split at h
    · next hc =>
      rw [Bool.and_eq_true] at hc
      split at h
      · next m' hm ht => cases h; exact .irqHw x m' ht (takeable_iff.2 hc.1) (best_of hn hc.2) (maskNext_sound hu0 hm)
      · next m' ts hm ht => cases h; exact .irqDisp x ts m' ht (takeable_iff.2 hc.1) (best_of hn hc.2) (maskNext_sound hu0 hm)
      · cases h
    · cases h
  | code x =>
    simp only [next] at h
    split at h
    · next hc =>
      simp only [Bool.and_eq_true] at hc
      obtain ⟨⟨⟨⟨h1, h2⟩, h3⟩, h4⟩, h5⟩ := hc
      split at h
      · next m' hm =>
        cases h
        refine .code x m' (quiet_of hn h1) (noCall_of hn hi h2) (maskNext_sound hu0 hm) (fun t e => by rw [e] at h3; cases h3) (fun t e => by rw [e] at h3; cases h3) (fun hu => ?_) (fun hf => ?_)
        · apply userCode_of
          rcases hu with ⟨r, rfl⟩ | rfl <;> simpa [needsUser] using h4
        · apply finish_of
          subst hf
          simpa [isRet] using h5
      · cases h
    · cases h
  | spawn d u x =>
    simp only [next] at h
    split at h
    · next hc =>
      simp only [Bool.and_eq_true] at hc
      obtain ⟨⟨h1, h2⟩, h3⟩ := hc
      split at h
      · next ts ht =>
        split at h
        · next e' ev' hs => cases h; exact .spawn d ts u x e' ev' (quiet_of hn h1) (noCall_of hn hi h2) (userCode_of h3) ht hs
        · cases h
      · cases h
    · cases h
  | wake d u =>
    simp only [next] at h
    split at h
    · next hc =>
      simp only [Bool.and_eq_true] at hc
      obtain ⟨⟨h1, h2⟩, h3⟩ := hc
      split at h
      · next ts ht =>
        split at h
        · next e' ev' hs => cases h; exact .wake d ts u e' ev' (quiet_of hn h1) (noCall_of hn hi h2) (userCode_of h3) ht hs
        · cases h
      · cases h
    · cases h
  | call d =>
    simp only [next] at h
    split at h
    · next hc =>
      simp only [Bool.and_eq_true] at hc
      obtain ⟨h1, h3⟩ := hc
      split at h
      · next ts ht =>
        split at h
        · next e' ev' hs => cases h; exact .call d ts e' ev' (quiet_of hn h1) (userCode_of h3) ht hs
        · cases h
      · cases h
    · cases h
  | disp x r =>
    simp only [next] at h
    split at h
    · next hc =>
      simp only [Bool.and_eq_true] at hc
      obtain ⟨h1, h2⟩ := hc
      split at h
      · next x' rest ts hst ht =>
        split at h
        · next hcond =>
          obtain ⟨rfl, hr⟩ := hcond
          split at h
          · next e' ev' hs => cases h; exact .disp _ rest ts r e' ev' (quiet_of hn h1) (noCall_of hn hi h2) hst ht hr hs
          · cases h
        · cases h
      · cases h
    · cases h

theorem idle_upd {c : Cfg} {s : St} (hi : Idle c s) {d : Nat} {ts : List Nat} (hd : c.tasks d = some ts) (e : Executor.St) (d' : Nat) (hn : c.tasks d' = none) (i : Nat) : (upd s.ex d e d').pc i = .idle := by
  have : d' ≠ d := fun h => by rw [h, hd] at hn; cases hn
  simp only [upd, if_neg this]
  exact hi d' hn i

theorem idle_step {c : Cfg} {s s' : St} {a : Act} {ev : List (Nat × Executor.Ev)} (hi : Idle c s) (h : Step c s a ev s') : Idle c s' := by
  intro d' hn i
  cases h with
  | irqDisp h ts m' ht => exact idle_upd hi ht _ d' hn i
  | spawn d ts u a e' ev hq hc hu hd => exact idle_upd hi hd _ d' hn i
  | wake d ts u e' ev hq hc hu hd => exact idle_upd hi hd _ d' hn i
  | call d ts e' ev hq hu hd => exact idle_upd hi hd _ d' hn i
  | disp h rest ts r e' ev hq hc hst hd => exact idle_upd hi hd _ d' hn i
  | _ => exact hi d' hn i

/-- several steps -/
def run (c : Cfg) (u0 : Nat → Nat → Bool) (n : Nat) : St → List Act → Option (List (Nat × Executor.Ev) × St)
  | s, [] => some ([], s)
  | s, a :: as =>
    match next c u0 n s a with
    | some (ev, s1) =>
      match run c u0 n s1 as with
      | some (tr, s2) => some (ev ++ tr, s2)
      | none => none
    | none => none

theorem run_sound {c : Cfg} {n : Nat} {u0 : Nat → Nat → Bool} (hu0 : ∀ t r, u0 t r = true → c.sm.uses t r) (hn : Small c n) : ∀ (as : List Act) {s s' : St} {tr : List (Nat × Executor.Ev)}, Idle c s → run c u0 n s as = some (tr, s') → Exec c s as tr s' ∧ Idle c s'
  | [], s, s', tr, hi, h => by cases h; exact ⟨.nil _, hi⟩
  | a :: as, s, s', tr, hi, h => by
    simp only [run] at h
    split at h
    · next ev s1 h1 =>
      split at h
      · next tr' s2 h2 =>
        cases h
        have hs := next_sound hu0 hn hi h1
        obtain ⟨k1, k2⟩ := run_sound hu0 hn as (idle_step hi hs) h2
        exact ⟨Exec.trans (.snoc (.nil _) hs) k1, k2⟩
      · cases h
    · cases h

end Verif.MaskSystem
