import Verif.MaskTimed.Props
import Verif.MaskSystem.Cases
import Verif.Timed.Run
import Verif.Backends.Model

/-!
# Executable version of `Verif.MaskTimed`, for concrete executions; C105 is violated without the condition

`next` computes a step; `next_sound` proves that what it computes is a step of the relation.
-/

namespace Verif.MaskTimed

open Verif
open Verif.Timed (opOf opStart waitsEx op_frame hd_frame initSpawn spawned spawned_eq spawned_idle)

/-- `n` handlers, `k` delays of tasks -/
structure Small (c : Cfg) (n k : Nat) : Prop where
  sys : MaskSystem.Small c.sys n
  own : ∀ i, k ≤ i → ∀ d ts, c.sys.tasks d = some ts → c.own i ∉ ts

def runsB (c : Cfg) (s : St) (t : Nat) : Bool :=
  match SourceMask.top s.y.m.stack with
  | some d =>
    match c.sys.tasks d, (s.y.ex d).d with
    | some ts, .body t' _ => decide (t ∈ ts) && decide (t' = t)
    | _, _ => false
  | none => false

theorem runs_iff {c : Cfg} {s : St} {t : Nat} : runsTask c s t ↔ runsB c s t = true := by
  unfold runsTask runsB
  constructor
  · rintro ⟨d, ts, rest, h1, h2, h3, h4⟩
    simp [h1, h2, h3, h4]
  · intro h
    split at h
    · next d hd =>
      split at h
      · next ts t' rest h1 h2 =>
        simp only [Bool.and_eq_true, decide_eq_true_eq] at h
        obtain ⟨h3, rfl⟩ := h
        exact ⟨d, ts, rest, h1, h3, hd, h2⟩
      · cases h
    · cases h

def isTaskB (c : Cfg) (n t : Nat) : Bool := (List.range n).any fun d =>
  match c.sys.tasks d with
  | some ts => decide (t ∈ ts)
  | none => false

theorem isTask_iff {c : Cfg} {n k t : Nat} (hn : Small c n k) : isTask c t ↔ isTaskB c n t = true := by
  unfold isTask isTaskB
  rw [List.any_eq_true]
  constructor
  · rintro ⟨d, ts, h1, h2⟩
    refine ⟨d, List.mem_range.2 (Nat.lt_of_not_le fun hle => ?_), by simp [h1, h2]⟩
    rw [hn.sys.tasks d hle] at h1; cases h1
  · rintro ⟨d, -, h⟩
    split at h
    · next ts ht => exact ⟨d, ts, ht, by simpa using h⟩
    · cases h

def noOpB (c : Cfg) (k : Nat) (s : St) : Bool := (List.range k).all fun i => !runsB c s (c.own i) || decide (s.tq.pc i = .none) || decide (s.tq.pc i = .alive)

theorem noOp_of {c : Cfg} {n k : Nat} {s : St} (hn : Small c n k) (h : noOpB c k s = true) : noOp c s := by
  intro i hr
  by_cases hlt : i < k
  · have := List.all_eq_true.1 h i (List.mem_range.2 hlt)
    rw [runs_iff.1 hr] at this
    simpa using this
  · obtain ⟨d, ts, rest, h1, h2, -, -⟩ := hr
    exact absurd h2 (hn.own i (Nat.le_of_not_lt hlt) d ts h1)

def inHandlerB (c : Cfg) (n : Nat) (s : St) : Bool :=
  MaskSystem.quietB c.sys n s.y &&
    match s.y.m.stack with
    | .body h :: _ => decide (h = c.th)
    | _ => false

theorem inHandler_of {c : Cfg} {n k : Nat} {s : St} (hn : Small c n k) (h : inHandlerB c n s = true) : inHandler c s := by
  unfold inHandlerB at h
  rw [Bool.and_eq_true] at h
  refine ⟨MaskSystem.quiet_of hn.sys h.1, ?_⟩
  have h2 := h.2
  split at h2
  · next x rest hs => simp only [decide_eq_true_eq] at h2; exact ⟨rest, by rw [hs, h2]⟩
  · cases h2

def sysOkB (c : Cfg) (k : Nat) (s : St) (a : MaskSystem.Act) : Bool :=
  (match a with
   | .hw h | .unhw h | .irq h => decide (h ≠ c.th)
   | .code .ret => decide (SourceMask.top s.y.m.stack ≠ some c.th) || decide (s.tq.h = .idle)
   | _ => true) && (!a.own || noOpB c k s) && (!userAct a || decide (SourceMask.top s.y.m.stack ≠ some c.th))

def noTaskB (c : Cfg) (n : Nat) : TimerQueue.Hpc → Bool
  | .h2 wk => !isTaskB c n wk
  | _ => true

def wkB (c : Cfg) : TimerQueue.Act → Bool
  | .poll j wk => decide (wk = c.own j)
  | _ => true

/-- one step of the machine -/
def next (c : Cfg) (u0 : Nat → Nat → Bool) (n k : Nat) (s : St) : Act → Option (List (Nat × Executor.Ev) × St)
  | .clock m o p =>
    match TimerQueue.step c.tb s.tq (.tick m o p) with
    | some (q, _) => some ([], { s with tq := q, y := sync c s.y q })
    | none => none
  | .sys a =>
    if sysOkB c k s a then
      match MaskSystem.next c.sys u0 n s.y a with
      | some (ev, y') => some (ev, { s with y := y', waits := waitsEx c.own s.waits ev })
      | none => none
    else none
  | .enter =>
    match MaskSystem.next c.sys u0 n s.y (.irq c.th), TimerQueue.step c.tb s.tq .start with
    | some ([], y'), some (q, _) => some ([], { s with tq := q, y := sync c y' q })
    | _, _ => none
  | .hgo =>
    if inHandlerB c n s && decide (s.call = none) && noTaskB c n s.tq.h then
      match TimerQueue.step c.tb s.tq .hgo with
      | some (q, _) => some ([], { s with tq := q, y := sync c s.y q })
      | none => none
    else none
  | .arm x =>
    if inHandlerB c n s then
      match TimerQueue.step c.tb s.tq (.arm x) with
      | some (q, _) => some ([], { s with tq := q, y := sync c s.y q })
      | none => none
    else none
  | .hcall =>
    if inHandlerB c n s && decide (s.call = none) then
      match s.tq.h with
      | .h2 wk =>
        match (List.range n).find? fun d => match c.sys.tasks d with | some ts => decide (wk ∈ ts) | none => false with
        | some d =>
          match c.sys.tasks d with
          | some ts =>
            if wk ∈ ts then
              match Executor.step (c.sys.exec d ts) (s.y.ex d) (.callWake 0 wk) with
              | some (e', ev) => some (ev.map (d, ·), { s with y := { s.y with ex := MaskSystem.upd s.y.ex d e' }, call := some d })
              | none => none
            else none
          | none => none
        | none => none
      | _ => none
    else none
  | .hacc =>
    if inHandlerB c n s then
      match s.call with
      | some d =>
        match c.sys.tasks d with
        | some ts =>
          match Executor.step (c.sys.exec d ts) (s.y.ex d) (.thr 0) with
          | some (e', ev) => some (ev.map (d, ·), { s with y := { s.y with ex := MaskSystem.upd s.y.ex d e' }, waits := waitsEx c.own s.waits (ev.map (d, ·)) })
          | none => none
        | none => none
      | none => none
    else none
  | .hret =>
    if inHandlerB c n s then
      match s.call with
      | some d =>
        if (s.y.ex d).pc 0 = .idle then
          match TimerQueue.step c.tb s.tq .hgo with
          | some (q, _) => some ([], { s with tq := q, y := sync c s.y q, call := none })
          | none => none
        else none
      | none => none
    else none
  | .op a =>
    if MaskSystem.quietB c.sys n s.y && MaskSystem.noCallB n s.y && MaskSystem.userCodeB c.sys s.y && decide (SourceMask.top s.y.m.stack ≠ some c.th) && wkB c a && (!opStart a || noOpB c k s) then
      match opOf a with
      | some i =>
        if isTaskB c n (c.own i) = true → runsB c s (c.own i) = true then
          match TimerQueue.step c.tb s.tq a with
          | some (q, e) => some ([], { s with tq := q, y := sync c s.y q, waits := Delay.waitsTq s.waits a e })
          | none => none
        else none
      | none => none
    else none

theorem next_sound {c : Cfg} {n k : Nat} {s s' : St} {a : Act} {ev : List (Nat × Executor.Ev)} {u0 : Nat → Nat → Bool} (hu0 : ∀ t r, u0 t r = true → c.sys.sm.uses t r) (hn : Small c n k) (hi : MaskSystem.Idle c.sys s.y) (h : next c u0 n k s a = some (ev, s')) : Step c s a ev s' := by
  cases a with
  | clock m o p =>
    simp only [next] at h
    split at h
    · next q e hq => cases h; exact .clock m o p q e hq
    · cases h
  | sys x =>
    simp only [next] at h
    split at h
    · next hc =>
      split at h
      · next ev' y' hs =>
        cases h
        simp only [sysOkB, Bool.and_eq_true] at hc
        obtain ⟨⟨h1, h2⟩, h3⟩ := hc
        refine .sys x _ y' (MaskSystem.next_sound hu0 hn.sys hi hs) (fun e => by subst e; simp at h1) (fun e => by subst e; simp at h1) (fun e => by subst e; simp at h1)
          (fun e => noOp_of hn (by simpa [e] using h2)) (fun e => by simpa [e] using h3) (fun e ht => by subst e; simpa [ht] using h1)
      · cases h
    · cases h
  | enter =>
    simp only [next] at h
    split at h
    · next y' q e hs hq => cases h; exact .enter y' q e (MaskSystem.next_sound hu0 hn.sys hi hs) hq
    · cases h
  | hgo =>
    simp only [next] at h
    split at h
    · next hc =>
      simp only [Bool.and_eq_true] at hc
      obtain ⟨⟨h1, h2⟩, h3⟩ := hc
      split at h
      · next q e hq =>
        cases h
        refine .hgo q e (inHandler_of hn h1) (by simpa using h2) (fun wk hw ht => ?_) hq
        rw [hw] at h3
        simp [noTaskB, (isTask_iff hn).1 ht] at h3
      · cases h
    · cases h
  | arm x =>
    simp only [next] at h
    split at h
    · next hc =>
      split at h
      · next q e hq => cases h; exact .arm x q e (inHandler_of hn hc) hq
      · cases h
    · cases h
  | hcall =>
    simp only [next] at h
    split at h
    · next hc =>
      simp only [Bool.and_eq_true] at hc
      split at h
      · next wk hw =>
        split at h
        · next d hf =>
          split at h
          · next ts ht =>
            split at h
            · next hm =>
              split at h
              · next e' ev' hs => cases h; exact .hcall d ts wk e' ev' (inHandler_of hn hc.1) (by simpa using hc.2) hw ht hm hs
              · cases h
            · cases h
          · cases h
        · cases h
      · cases h
    · cases h
  | hacc =>
    simp only [next] at h
    split at h
    · next hc =>
      split at h
      · next d hcall =>
        split at h
        · next ts ht =>
          split at h
          · next e' ev' hs => cases h; exact .hacc d ts e' ev' (inHandler_of hn hc) hcall ht hs
          · cases h
        · cases h
      · cases h
    · cases h
  | hret =>
    simp only [next] at h
    split at h
    · next hc =>
      split at h
      · next d hcall =>
        split at h
        · next hidle =>
          split at h
          · next q e hq => cases h; exact .hret d q e (inHandler_of hn hc) hcall hidle hq
          · cases h
        · cases h
      · cases h
    · cases h
  | op x =>
    simp only [next] at h
    split at h
    · next hc =>
      simp only [Bool.and_eq_true] at hc
      obtain ⟨⟨⟨⟨⟨h1, h2⟩, h3⟩, h4⟩, h5⟩, h6⟩ := hc
      split at h
      · next i hop =>
        split at h
        · next hown =>
          split at h
          · next q e hq =>
            cases h
            exact .op x i q e (MaskSystem.quiet_of hn.sys h1) (MaskSystem.noCall_of hn.sys hi h2) (MaskSystem.userCode_of h3) (by simpa using h4) hop (fun ht => runs_iff.2 (hown ((isTask_iff hn).1 ht)))
              (fun j wk e => by subst e; simpa [wkB] using h5) (fun e => noOp_of hn (by simpa [e] using h6)) hq
          · cases h
        · cases h
      · cases h
    · cases h

theorem idle_step {c : Cfg} {s s' : St} {a : Act} {ev : List (Nat × Executor.Ev)} (hi : MaskSystem.Idle c.sys s.y) (h : Step c s a ev s') : MaskSystem.Idle c.sys s'.y := by
  cases h with
  | sys a ev y' hs => exact MaskSystem.idle_step hi hs
  | enter y' q e hs => exact fun d' hn i => MaskSystem.idle_step hi hs d' hn i
  | hcall d ts wk e' ev hh hc hw hd => exact fun d' hn i => MaskSystem.idle_upd hi hd _ d' hn i
  | hacc d ts e' ev hh hc hd => exact fun d' hn i => MaskSystem.idle_upd hi hd _ d' hn i
  | _ => exact hi

theorem idle_exec {c : Cfg} {s s' : St} {as : List Act} {tr : List (Nat × Executor.Ev)} (hi : MaskSystem.Idle c.sys s.y) (h : Exec c s as tr s') : MaskSystem.Idle c.sys s'.y := by
  induction h with
  | nil => exact hi
  | snoc h hs ih => exact idle_step ih hs

/-- operations on other delays -/
def others (j : Nat) : Act → Bool
  | .op a => decide (opOf a ≠ some j)
  | _ => true

theorem pc_step {c : Cfg} {s s' : St} {a : Act} {ev : List (Nat × Executor.Ev)} {j : Nat} (h : Step c s a ev s') (ho : others j a = true) : s'.tq.pc j = s.tq.pc j := by
  cases h with
  | clock m o p q e hs => exact congrFun (hd_frame hs rfl) j
  | enter y' q e hs hq => exact congrFun (hd_frame hq rfl) j
  | hgo q e hh hc hw hq => exact congrFun (hd_frame hq rfl) j
  | arm x q e hh hq => exact congrFun (hd_frame hq rfl) j
  | hret d q e hh hc hi hq => exact congrFun (hd_frame hq rfl) j
  | op a i q e hqu hc huc hth hi hown hwk hst hq =>
    refine (op_frame hq hi).2 j fun e => ?_
    subst e
    simp [others, hi] at ho
  | _ => rfl

theorem pc_exec {c : Cfg} {s s' : St} {as : List Act} {tr : List (Nat × Executor.Ev)} {j : Nat} (h : Exec c s as tr s') (ho : ∀ a ∈ as, others j a = true) : s'.tq.pc j = s.tq.pc j := by
  induction h with
  | nil => rfl
  | snoc h hs ih => rw [pc_step hs (ho _ (by simp)), ih (fun a ha => ho a (by simp [ha]))]

/-- an execution -/
def run (c : Cfg) (u0 : Nat → Nat → Bool) (n k : Nat) (s : St) : List Act → Option (List (Nat × Executor.Ev) × St)
  | [] => some ([], s)
  | a :: as =>
    match next c u0 n k s a with
    | none => none
    | some (ev, s1) =>
      match run c u0 n k s1 as with
      | none => none
      | some (tr, s2) => some (ev ++ tr, s2)

theorem exec_append {c : Cfg} {s s1 s2 : St} {as bs : List Act} {tr1 tr2 : List (Nat × Executor.Ev)} (h1 : Exec c s as tr1 s1) (h2 : Exec c s1 bs tr2 s2) : Exec c s (as ++ bs) (tr1 ++ tr2) s2 := by
  induction h2 with
  | nil => simpa using h1
  | snoc h hs ih => rw [← List.append_assoc, ← List.append_assoc]; exact .snoc ih hs

theorem run_sound {c : Cfg} {n k : Nat} {u0 : Nat → Nat → Bool} (hu0 : ∀ t r, u0 t r = true → c.sys.sm.uses t r) (hn : Small c n k) : ∀ {as : List Act} {s s' : St} {tr : List (Nat × Executor.Ev)}, MaskSystem.Idle c.sys s.y → run c u0 n k s as = some (tr, s') → Exec c s as tr s'
  | [], s, s', tr, _, h => by cases h; exact .nil s
  | a :: as, s, s', tr, hi, h => by
    simp only [run] at h
    split at h
    · cases h
    · next ev s1 h1 =>
      split at h
      · cases h
      · next tr' s2 h2 =>
        cases h
        have hs := next_sound hu0 hn hi h1
        have := exec_append (Exec.snoc (Exec.nil s) hs) (run_sound hu0 hn (idle_step hi hs) h2)
        simpa using this

/-- the stack consists of these handlers, none of which is inside a critical section -/
def stackIs : List Nat → List SourceMask.Rec → Bool
  | [], [] => true
  | h :: hs, .body h' :: l => decide (h = h') && stackIs hs l
  | _, _ => false

theorem stackIs_eq : ∀ {hs : List Nat} {l : List SourceMask.Rec}, stackIs hs l = true → l = hs.map .body
  | [], [], _ => rfl
  | h :: hs, x :: l, e => by
    cases x with
    | body h' =>
      simp only [stackIs, Bool.and_eq_true, decide_eq_true_eq] at e
      rw [e.1, stackIs_eq e.2]; rfl
    | _ => simp [stackIs] at e
  | [], _ :: _, e => by simp [stackIs] at e
  | _ :: _, [], e => by simp [stackIs] at e

/-! ## A concrete application -/

/-- Handlers: the thread (0), dispatchers of task 0 (1, priority 1), of task 2 (2, priority 2), of task 1 (3, priority 3), the timer interrupt (4, priority `w`), a hardware task (5, priority `x`). The dispatchers and the hardware task have the interrupts 4, 5, 6, 7. Delay `i` belongs to task `i`. -/
def demo (w x : Nat) : Cfg :=
  { sys :=
      { sm :=
          { prio := fun h => if h = 1 then 1 else if h = 2 then 2 else if h = 3 then 3 else if h = 4 then w else if h = 5 then x else 0
            bind := fun h => if h = 1 then some 4 else if h = 2 then some 5 else if h = 3 then some 6 else if h = 5 then some 7 else none
            uses := fun _ _ => False
            ceil := fun _ => 0
            irqs := [(1, 4), (2, 5), (3, 6), (x, 7)]
            masks := (SourceMask.genMasks [(1, 4), (2, 5), (3, 6), (x, 7)]).getD [] }
        tasks := fun h => if h = 1 then some [0] else if h = 2 then some [2] else if h = 3 then some [1] else none }
    tb := { w := 32, noop := true, sl := 0 }
    th := 4
    own := fun i => if i < 2 then i else 9 }

/-- all interrupts of the application are enabled -/
def demoOn : SourceMask.Regs := fun i => if i = 0 then 240#32 else 0#32

theorem demo_uses {w x : Nat} : ∀ t r, (fun _ _ => false : Nat → Nat → Bool) t r = true → (demo w x).sys.sm.uses t r := by intro t r h; cases h

theorem demo_tasks {w x d : Nat} {ts : List Nat} (h : (demo w x).sys.tasks d = some ts) : (d = 1 ∧ ts = [0]) ∨ (d = 2 ∧ ts = [2]) ∨ (d = 3 ∧ ts = [1]) := by
  simp only [demo] at h
  split at h
  · next e => cases h; exact .inl ⟨e, rfl⟩
  · split at h
    · next e => cases h; exact .inr (.inl ⟨e, rfl⟩)
    · split at h
      · next e => cases h; exact .inr (.inr ⟨e, rfl⟩)
      · cases h

theorem demo_wf {w x : Nat} (hw : 1 ≤ w) (hx : ∃ m, SourceMask.genMasks [(1, 4), (2, 5), (3, 6), (x, 7)] = some m) : WellFormed (demo w x) where
  sm := by
    refine ⟨?_, fun t n hb hp => ?_, fun _ _ h => h.elim⟩
    · obtain ⟨m, hm⟩ := hx
      simp only [demo, hm]; rfl
    · simp only [demo] at hb ⊢
      by_cases e1 : t = 1
      · subst e1; simp at hb; subst hb; simp
      · by_cases e2 : t = 2
        · subst e2; simp at hb; subst hb; simp
        · by_cases e3 : t = 3
          · subst e3; simp at hb; subst hb; simp
          · by_cases e5 : t = 5
            · subst e5; simp at hb; subst hb; simp
            · simp [e1, e2, e3, e5] at hb
  thread := rfl
  th := rfl
  unmasked := rfl
  prio1 := hw
  uniq := fun d ts d' ts' t h h' ht ht' => by
    rcases demo_tasks h with ⟨rfl, rfl⟩ | ⟨rfl, rfl⟩ | ⟨rfl, rfl⟩ <;> rcases demo_tasks h' with ⟨rfl, rfl⟩ | ⟨rfl, rfl⟩ | ⟨rfl, rfl⟩ <;> simp_all
  width := by show 0 < 32; decide

theorem demo_plain : SourceMask.Plain (demo 3 4).sys.sm demoOn 3 := by
  refine ⟨fun _ => ⟨6, rfl, by decide⟩, ?_, ?_, 4, ?_⟩
  · intro t ht hlt
    by_cases e1 : t = 1
    · subst e1; exact ⟨4, 6, rfl, rfl, rfl⟩
    · by_cases e2 : t = 2
      · subst e2; exact ⟨5, 6, rfl, rfl, rfl⟩
      · by_cases e3 : t = 3
        · subst e3; exact absurd hlt (by decide)
        · by_cases e4 : t = 4
          · subst e4; exact absurd hlt (by decide)
          · by_cases e5 : t = 5
            · subst e5; exact absurd hlt (by decide)
            · simp [demo, e1, e2, e3, e4, e5] at ht
  · intro p q n h1 h2
    simp only [demo, List.mem_cons, Prod.mk.injEq, List.not_mem_nil, or_false] at h1 h2
    omega
  · intro t
    simp only [demo]
    (repeat' split) <;> omega

theorem demo_small (w x : Nat) : Small (demo w x) 6 2 where
  sys := ⟨fun h hh => by simp only [demo]; repeat' split
                         all_goals omega, fun h hh => by
    simp only [demo]
    repeat' split
    all_goals first | rfl | omega⟩
  own := fun i hi d ts h => by
    have : (demo w x).own i = 9 := by simp only [demo]; rw [if_neg (by omega)]
    rw [this]
    rcases demo_tasks h with ⟨-, rfl⟩ | ⟨-, rfl⟩ | ⟨-, rfl⟩ <;> decide

/-- `init` has spawned task `t` of dispatcher `d` -/
def demoStart (d t : Nat) : St :=
  { y := { m := SourceMask.start 0 demoOn, pend := fun _ => false, ex := fun h => if h = d then spawned [t] t else Executor.init }, tq := TimerQueue.init true, call := none, waits := fun _ => false }

theorem demo_start {w x d t : Nat} (hd : (demo w x).sys.tasks d = some [t]) : Start (demo w x) demoOn (demoStart d t) where
  m := rfl
  calls := fun d' ts h => by
    have hz : (demo w x).sys.exec d' ts = { ts := ts, zero := false } := by
      rcases demo_tasks h with ⟨rfl, rfl⟩ | ⟨rfl, rfl⟩ | ⟨rfl, rfl⟩ <;> rfl
    rw [hz]
    by_cases e : d' = d
    · subst e
      rw [hd] at h; cases h
      obtain ⟨tr, hx⟩ := spawned_eq [t] t List.mem_cons_self
      refine ⟨initSpawn t, tr, ?_, by simpa [demoStart] using hx⟩
      intro a ha
      simp only [initSpawn, List.mem_cons, List.not_mem_nil, or_false] at ha
      rcases ha with rfl | rfl | rfl | rfl | rfl <;> exact ⟨rfl, fun _ _ => ⟨by simp, by simp⟩⟩
    · exact ⟨[], [], by simp, by simp only [demoStart, if_neg e]; rfl⟩
  over := fun d' i => by
    simp only [demoStart]
    split
    · exact spawned_idle _ _ _ List.mem_cons_self
    · rfl
  tq := rfl
  line := rfl
  call := rfl
  waits := fun _ => rfl

theorem demo_idle {w x d t : Nat} (hd : (demo w x).sys.tasks d = some [t]) : MaskSystem.Idle (demo w x).sys (demoStart d t).y := fun d' _ i => (demo_start hd).over d' i

/-- Task 0 creates a delay for time 10 and inserts it as the earliest one. Before it has pended the timer interrupt a hardware task preempts it and spawns task 2 and task 1. Task 1 runs first and awaits a delay until time 20: it is not the earliest one, so that `poll` does not pend the interrupt.
Then task 2 runs on and on. -/
def inversion : List Act :=
  [.sys (.irq 1), .sys (.disp 1 false), .sys (.disp 1 false), .sys (.disp 1 false), .op (.create 0 10), .op (.poll 0 0), .op (.ins 0),
   .sys (.hw 5), .sys (.irq 5), .sys (.spawn 2 2 7), .sys (.call 2), .sys (.call 2), .sys (.call 2), .sys (.call 2), .sys (.spawn 3 1 7), .sys (.call 3), .sys (.call 3), .sys (.call 3), .sys (.call 3), .sys (.code .ret),
   .sys (.irq 3), .sys (.disp 3 false), .sys (.disp 3 false), .sys (.disp 3 false), .op (.create 1 20), .op (.poll 1 1), .op (.ins 1), .sys (.disp 3 false), .sys (.disp 3 false),
   .sys (.code .ret), .sys (.irq 2), .sys (.disp 2 false), .sys (.disp 2 false), .sys (.disp 2 false)] ++ List.replicate 40 (.clock false false false)

/-- what holds after `inversion` -/
def inverted (s : St) : Bool :=
  s.waits 1 && decide (s.tq.inst 1 + 20 ≤ s.tq.now) && stackIs [2, 1, 0] s.y.m.stack && (next (demo 3 4) (fun _ _ => false) 6 2 s (.sys (.code .userCs))).isSome

theorem inversion_run : (match run (demo 3 4) (fun _ _ => false) 6 2 (demoStart 1 0) inversion with | some (_, s) => inverted s | none => false) = true := by decide +kernel

/-- **C105, violated without the condition**: a task of priority 3 (not more than that of the timer interrupt, chosen as RTIC does for hardware tasks of priority 4) awaits a delay that has expired 20 ticks ago, nothing blocks priority 3, and a task of priority 2 runs on. -/
theorem C105_priority_inversion_violated : ∃ (c : Cfg) (e0 : SourceMask.Regs) (st s2 s3 : St) (as : List Act) (a : Act) (tr ev : List (Nat × Executor.Ev)) (i d cur : Nat) (ts : List Nat), WellFormed c ∧ SourceMask.Plain c.sys.sm e0 d ∧ Start c e0 st ∧ Exec c st as tr s2 ∧ c.sys.tasks d = some ts ∧ c.own i ∈ ts ∧ c.sys.sm.prio d = 3 ∧
    c.sys.sm.prio c.th = Backends.monotonicPrio [4] 2 ∧ c.sys.sm.prio d ≤ c.sys.sm.prio c.th ∧
    s2.waits i = true ∧ s2.tq.inst i + 20 ≤ s2.tq.now ∧ ¬ SourceMask.BlockedP c.sys.sm d s2.y.m.stack ∧ SourceMask.top s2.y.m.stack = some cur ∧ c.sys.sm.prio cur = 2 ∧ a.own = true ∧ Step c s2 a ev s3 := by
  have h := inversion_run
  split at h
  · next tr s hr =>
    simp only [inverted, Bool.and_eq_true, decide_eq_true_eq, Option.isSome_iff_exists] at h
    obtain ⟨⟨⟨h1, h2⟩, h3⟩, ⟨ev, s3⟩, h4⟩ := h
    have h3 := stackIs_eq h3
    have hx := run_sound demo_uses (demo_small 3 4) (demo_idle rfl) hr
    have hi := idle_exec (demo_idle rfl) hx
    refine ⟨demo 3 4, demoOn, _, s, s3, _, _, tr, ev, 1, 3, 2, [1], demo_wf (by decide) ⟨_, rfl⟩, demo_plain, demo_start rfl, hx, rfl, by decide, rfl, by decide, by decide, h1, h2, ?_, by rw [h3]; rfl, rfl, rfl, next_sound demo_uses (demo_small 3 4) hi h4⟩
    rw [h3]
    rintro ⟨x, b, hs, hb, -⟩
    have : x ∈ [SourceMask.Rec.body 2, .body 1, .body 0] := hs.subset List.mem_cons_self
    simp only [List.mem_cons, List.not_mem_nil, or_false] at this
    rcases this with rfl | rfl | rfl <;> exact hb
  · cases h

/-- Task 1 (priority 3) awaits a delay until time 20, the compare is armed for it. A hardware task of priority 2 runs when the time comes. -/
def lowTimer : List Act :=
  [.sys (.irq 3), .sys (.disp 3 false), .sys (.disp 3 false), .sys (.disp 3 false), .op (.create 1 20), .op (.poll 1 1), .op (.ins 1), .op (.pend 1), .sys (.disp 3 false), .sys (.disp 3 false), .sys (.code .ret),
   .enter, .hgo, .hgo, .hgo, .hgo, .arm 20, .hgo, .sys (.code .ret), .sys (.hw 5), .sys (.irq 5)] ++ List.replicate 19 (.clock false false false) ++ [.clock true false false] ++
    List.replicate 20 (.clock false false false)

def lowTimed (s : St) : Bool :=
  s.waits 1 && decide (s.tq.inst 1 + 20 ≤ s.tq.now) && stackIs [5, 0] s.y.m.stack && decide (s.tq.pc 1 ≠ .p2) && (next (demo 1 2) (fun _ _ => false) 6 2 s (.sys (.code .userCs))).isSome

theorem lowTimer_run : (match run (demo 1 2) (fun _ _ => false) 6 2 (demoStart 3 1) lowTimer with | some (_, s) => lowTimed s | none => false) = true := by decide +kernel

theorem lowTimer_others (j : Nat) (hj : j ≠ 1) : ∀ a ∈ lowTimer, others j a = true := by
  intro a ha
  simp only [lowTimer, List.mem_append, List.mem_cons, List.not_mem_nil, or_false, List.mem_replicate] at ha
  simp only [or_assoc] at ha
  repeat' (rcases ha with rfl | ha)
  all_goals first | rfl | (simp [others, opOf]; omega) | skip
  rcases ha with ha | ha | ha
  · rw [ha.2]; rfl
  · rw [ha]; rfl
  · rw [ha.2]; rfl

/-- **C105, violated for tasks more urgent than the timer interrupt**: with a hardware task of priority 2, RTIC gives the timer interrupt priority 1; a software task of priority 3 awaits a delay that has expired 20 ticks ago, nothing blocks it, nobody is held up before pending the timer interrupt, and the hardware task runs on. -/
theorem C105_low_timer_violated : ∃ (c : Cfg) (e0 : SourceMask.Regs) (st s2 s3 : St) (as : List Act) (a : Act) (tr ev : List (Nat × Executor.Ev)) (i d cur : Nat) (ts : List Nat), WellFormed c ∧ Start c e0 st ∧ Exec c st as tr s2 ∧ c.sys.tasks d = some ts ∧ c.own i ∈ ts ∧ c.sys.sm.prio d = 3 ∧
    c.sys.tasks cur = none ∧ c.sys.sm.prio cur = 2 ∧ c.sys.sm.prio c.th = Backends.monotonicPrio [2] 2 ∧ ¬ HeldUp c 3 s2 ∧
    s2.waits i = true ∧ s2.tq.inst i + 20 ≤ s2.tq.now ∧ ¬ SourceMask.BlockedP c.sys.sm d s2.y.m.stack ∧ SourceMask.top s2.y.m.stack = some cur ∧ a.own = true ∧ Step c s2 a ev s3 := by
  have h := lowTimer_run
  split at h
  · next tr s hr =>
    simp only [lowTimed, Bool.and_eq_true, decide_eq_true_eq, Option.isSome_iff_exists] at h
    obtain ⟨⟨⟨⟨h1, h2⟩, h3⟩, h5⟩, ⟨ev, s3⟩, h4⟩ := h
    have h3 := stackIs_eq h3
    have hx := run_sound demo_uses (demo_small 1 2) (demo_idle rfl) hr
    have hi := idle_exec (demo_idle rfl) hx
    refine ⟨demo 1 2, demoOn, _, s, s3, _, _, tr, ev, 1, 3, 5, [1], demo_wf (by decide) ⟨_, rfl⟩, demo_start rfl, hx, rfl, by decide, rfl, rfl, rfl, by decide, ?_, h1, h2, ?_, by rw [h3]; rfl, rfl, next_sound demo_uses (demo_small 1 2) hi h4⟩
    · rintro ⟨j, hj, -⟩
      by_cases e : j = 1
      · subst e; exact h5 hj
      · rw [pc_exec hx (lowTimer_others j e)] at hj; cases hj
    · rw [h3]
      rintro ⟨x, b, hs, hb, -⟩
      have : x ∈ [SourceMask.Rec.body 5, .body 0] := hs.subset List.mem_cons_self
      simp only [List.mem_cons, List.not_mem_nil, or_false] at this
      rcases this with rfl | rfl <;> exact hb
  · cases h

/-- Task 1 awaits a delay until time 20; the timer interrupt arms the compare for it; the processor idles; at time 20 the hardware raises the interrupt. -/
def expiry : List Act :=
  [.sys (.irq 3), .sys (.disp 3 false), .sys (.disp 3 false), .sys (.disp 3 false), .op (.create 1 20), .op (.poll 1 1), .op (.ins 1), .op (.pend 1), .sys (.disp 3 false), .sys (.disp 3 false), .sys (.code .ret),
   .enter, .hgo, .hgo, .hgo, .hgo, .arm 20, .hgo, .sys (.code .ret)] ++ List.replicate 19 (.clock false false false) ++ [.clock true false false]

/-- what holds after `expiry` -/
def expired (s : St) : Bool :=
  s.waits 1 && decide (s.tq.inst 1 ≤ s.tq.now) && decide (s.tq.pc 1 ≠ .p2) && stackIs [0] s.y.m.stack &&
    match next (demo 3 4) (fun _ _ => false) 6 2 s .enter with
    | some (_, s') => s'.waits 1 && decide (s'.tq.inst 1 ≤ s'.tq.now) && stackIs [4, 0] s'.y.m.stack && (next (demo 3 4) (fun _ _ => false) 6 2 s' .hgo).isSome
    | none => false

theorem expiry_run : (match run (demo 3 4) (fun _ _ => false) 6 2 (demoStart 3 1) expiry with | some (_, s) => expired s | none => false) = true := by decide +kernel

theorem expiry_others (j : Nat) (hj : j ≠ 1) : ∀ a ∈ expiry, others j a = true := by
  intro a ha
  simp only [expiry, List.mem_append, List.mem_cons, List.not_mem_nil, or_false, List.mem_replicate] at ha
  simp only [or_assoc] at ha
  repeat' (rcases ha with rfl | ha)
  all_goals first | rfl | (simp [others, opOf]; omega) | skip
  rcases ha with ha | ha
  · rw [ha.2]; rfl
  · rw [ha]; rfl

/-- Non-vacuity of `C105_expired_runs_first_partial`: the delay of task 1 expires while the processor idles, the timer interrupt is taken, the task still waits, and the handler makes the next step. -/
example : WellFormed (demo 3 4) ∧ SourceMask.Plain (demo 3 4).sys.sm demoOn 3 ∧ ∃ st s2 s3 as0 as tr0, Start (demo 3 4) demoOn st ∧ Exec (demo 3 4) st as0 tr0 s2 ∧ (demo 3 4).sys.tasks 3 = some [1] ∧ (demo 3 4).own 1 ∈ [1] ∧ SourceMask.top s2.y.m.stack = some 0 ∧
    While (demo 3 4) (fun s => s.waits 1 = true ∧ Overdue (demo 3 4) 1 s ∧ ¬ HeldUp (demo 3 4) ((demo 3 4).sys.sm.prio 3) s) s2 as s3 ∧ as ≠ [] ∧ ∃ a ev s4, Step (demo 3 4) s3 a ev s4 ∧ a.own = true ∧ SourceMask.top s3.y.m.stack = some 4 := by
  have h := expiry_run
  split at h
  · next tr s hr =>
    unfold expired at h
    rw [Bool.and_eq_true] at h
    obtain ⟨h, h5⟩ := h
    split at h5
    · next ev1 s1 hn1 =>
      simp only [Bool.and_eq_true, decide_eq_true_eq, Option.isSome_iff_exists] at h h5
      obtain ⟨⟨⟨h1, h2⟩, h3⟩, h4⟩ := h
      obtain ⟨⟨⟨g1, g2⟩, g3⟩, ⟨ev2, s2⟩, hn2⟩ := h5
      have h4 := stackIs_eq h4
      have g3 := stackIs_eq g3
      have hx := run_sound demo_uses (demo_small 3 4) (demo_idle rfl) hr
      have hi := idle_exec (demo_idle rfl) hx
      have st1 := next_sound demo_uses (demo_small 3 4) hi hn1
      have st2 := next_sound demo_uses (demo_small 3 4) (idle_step hi st1) hn2
      have hp1 : s.tq.pc 1 ≠ .p2 := by simpa using h3
      have hheld : ¬ HeldUp (demo 3 4) ((demo 3 4).sys.sm.prio 3) s := by
        rintro ⟨j, hj, -⟩
        by_cases e : j = 1
        · subst e; exact hp1 hj
        · rw [pc_exec hx (expiry_others j e)] at hj; cases hj
      have hheld' : ¬ HeldUp (demo 3 4) ((demo 3 4).sys.sm.prio 3) s1 := by
        rintro ⟨j, hj, hq⟩
        rw [pc_step st1 rfl] at hj
        exact hheld ⟨j, hj, hq⟩
      exact ⟨demo_wf (by decide) ⟨_, rfl⟩, demo_plain, _, s, s1, _, [.enter], tr, demo_start rfl, hx, rfl, by decide, by rw [h4]; rfl, .snoc (.nil ⟨h1, h2, hheld⟩) st1 ⟨g1, g2, hheld'⟩, by simp, _, ev2, s2, st2, rfl, by rw [g3]; rfl⟩
    · cases h5
  · cases h

end Verif.MaskTimed
