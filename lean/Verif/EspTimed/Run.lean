import Verif.EspTimed.Props
import Verif.EspSystem.Run
import Verif.Timed.Run

/-!
# Executable version of `Verif.EspTimed`, for concrete executions; C106 is violated without the condition

`next` computes a step; `next_sound` proves that what it computes is a step of the relation.
-/

namespace Verif.EspTimed

open Verif
open Verif.Timed (opOf opStart waitsEx op_frame hd_frame initSpawn spawned spawned_eq spawned_idle)

/-- `n` handlers, `k` delays of tasks -/
structure Small (c : Cfg) (n k : Nat) : Prop where
  sys : EspSystem.Small c.sys n
  own : ∀ i, k ≤ i → ∀ d ts, c.sys.tasks d = some ts → c.own i ∉ ts

def runsB (c : Cfg) (s : St) (t : Nat) : Bool :=
  match Esp32.top s.y.m.stack with
  | some d =>
    match c.sys.tasks d, (s.y.ex d).d with
    | some ts, .body t' _ => decide (t ∈ ts) && decide (t' = t)
    | _, _ => false
  | none => false

theorem runs_iff {c : Cfg} {s : St} {t : Nat} : runsTask c s t ↔ runsB c s t = true := by
  unfold runsTask runsB
  constructor
  · rintro ⟨d, ts, rest, h1, h2, h3, h4⟩
    simp [h1, h2, h3, h4]
  · intro h
    split at h
    · next d hd =>
      split at h
      · next ts t' rest h1 h2 =>
        simp only [Bool.and_eq_true, decide_eq_true_eq] at h
        obtain ⟨h3, rfl⟩ := h
        exact ⟨d, ts, rest, h1, h3, hd, h2⟩
      · cases h
    · cases h

def isTaskB (c : Cfg) (n t : Nat) : Bool := (List.range n).any fun d =>
  match c.sys.tasks d with
  | some ts => decide (t ∈ ts)
  | none => false

theorem isTask_iff {c : Cfg} {n k t : Nat} (hn : Small c n k) : isTask c t ↔ isTaskB c n t = true := by
  unfold isTask isTaskB
  rw [List.any_eq_true]
  constructor
  · rintro ⟨d, ts, h1, h2⟩
    refine ⟨d, List.mem_range.2 (Nat.lt_of_not_le fun hle => ?_), by simp [h1, h2]⟩
    rw [hn.sys.tasks d hle] at h1; cases h1
  · rintro ⟨d, -, h⟩
    split at h
    · next ts ht => exact ⟨d, ts, ht, by simpa using h⟩
    · cases h

def noOpB (c : Cfg) (k : Nat) (s : St) : Bool := (List.range k).all fun i => !runsB c s (c.own i) || decide (s.tq.pc i = .none) || decide (s.tq.pc i = .alive)

theorem noOp_of {c : Cfg} {n k : Nat} {s : St} (hn : Small c n k) (h : noOpB c k s = true) : noOp c s := by
  intro i hr
  by_cases hlt : i < k
  · have := List.all_eq_true.1 h i (List.mem_range.2 hlt)
    rw [runs_iff.1 hr] at this
    simpa using this
  · obtain ⟨d, ts, rest, h1, h2, -, -⟩ := hr
    exact absurd h2 (hn.own i (Nat.le_of_not_lt hlt) d ts h1)

def inHandlerB (c : Cfg) (n : Nat) (s : St) : Bool :=
  EspSystem.quietB c.sys n s.y &&
    match s.y.m.stack with
    | .body h _ _ :: _ => decide (h = c.th) || s.inl
    | _ => s.inl

theorem inHandler_of {c : Cfg} {n k : Nat} {s : St} (hn : Small c n k) (h : inHandlerB c n s = true) : inHandler c s := by
  unfold inHandlerB at h
  rw [Bool.and_eq_true] at h
  refine ⟨EspSystem.quiet_of hn.sys h.1, ?_⟩
  have h2 := h.2
  split at h2
  · next x prev i rest hs =>
    simp only [Bool.or_eq_true, decide_eq_true_eq] at h2
    rcases h2 with h2 | h2
    · exact .inl ⟨prev, i, rest, by rw [hs, h2]⟩
    · exact .inr h2
  · exact .inr h2

def sysOkB (c : Cfg) (k : Nat) (s : St) (a : EspSystem.Act) : Bool :=
  (match a with
   | .hw h | .unhw h | .irq h => decide (h ≠ c.th)
   | .code .finish => decide (Esp32.top s.y.m.stack ≠ some c.th) || decide (s.tq.h = .idle)
   | _ => true) && (!a.own || (!s.inl && noOpB c k s)) && (!userAct a || decide (Esp32.top s.y.m.stack ≠ some c.th))

def noTaskB (c : Cfg) (n : Nat) : TimerQueue.Hpc → Bool
  | .h2 wk => !isTaskB c n wk
  | _ => true

def wkB (c : Cfg) : TimerQueue.Act → Bool
  | .poll j wk => decide (wk = c.own j)
  | _ => true

/-- one step of the machine -/
def next (c : Cfg) (u0 : Nat → Nat → Bool) (n k : Nat) (s : St) : Act → Option (List (Nat × Executor.Ev) × St)
  | .clock m o p =>
    match TimerQueue.step c.tb s.tq (.tick m o p) with
    | some (q, _) => some ([], { s with tq := q, y := sync c s.y q })
    | none => none
  | .sys a =>
    if sysOkB c k s a then
      match EspSystem.next c.sys u0 n s.y a with
      | some (ev, y') => some (ev, { s with y := y', waits := waitsEx c.own s.waits ev })
      | none => none
    else none
  | .enter =>
    match EspSystem.next c.sys u0 n s.y (.irq c.th), TimerQueue.step c.tb s.tq .start with
    | some ([], y'), some (q, _) => some ([], { s with tq := q, y := sync c y' q })
    | _, _ => none
  | .hgo =>
    if inHandlerB c n s && decide (s.call = none) && noTaskB c n s.tq.h then
      match TimerQueue.step c.tb s.tq .hgo with
      | some (q, _) => some ([], { s with tq := q, y := sync c s.y q })
      | none => none
    else none
  | .arm x =>
    if inHandlerB c n s then
      match TimerQueue.step c.tb s.tq (.arm x) with
      | some (q, _) => some ([], { s with tq := q, y := sync c s.y q })
      | none => none
    else none
  | .hcall =>
    if inHandlerB c n s && decide (s.call = none) then
      match s.tq.h with
      | .h2 wk =>
        match (List.range n).find? fun d => match c.sys.tasks d with | some ts => decide (wk ∈ ts) | none => false with
        | some d =>
          match c.sys.tasks d with
          | some ts =>
            if wk ∈ ts then
              match Executor.step (c.sys.exec d ts) (s.y.ex d) (.callWake 0 wk) with
              | some (e', ev) => some (ev.map (d, ·), { s with y := { s.y with ex := EspSystem.upd s.y.ex d e' }, call := some d })
              | none => none
            else none
          | none => none
        | none => none
      | _ => none
    else none
  | .hacc =>
    if inHandlerB c n s then
      match s.call with
      | some d =>
        match c.sys.tasks d with
        | some ts =>
          match Executor.step (c.sys.exec d ts) (s.y.ex d) (.thr 0) with
          | some (e', ev) => some (ev.map (d, ·), { s with y := { s.y with ex := EspSystem.upd s.y.ex d e' }, waits := waitsEx c.own s.waits (ev.map (d, ·)) })
          | none => none
        | none => none
      | none => none
    else none
  | .hret =>
    if inHandlerB c n s then
      match s.call with
      | some d =>
        if (s.y.ex d).pc 0 = .idle then
          match TimerQueue.step c.tb s.tq .hgo with
          | some (q, _) => some ([], { s with tq := q, y := sync c s.y q, call := none })
          | none => none
        else none
      | none => none
    else none
  | .op a =>
    if !s.inl && !isPend a && EspSystem.quietB c.sys n s.y && EspSystem.noCallB n s.y && EspSystem.userCodeB c.sys s.y && decide (Esp32.top s.y.m.stack ≠ some c.th) && wkB c a && (!opStart a || noOpB c k s) then
      match opOf a with
      | some i =>
        if isTaskB c n (c.own i) = true → runsB c s (c.own i) = true then
          match TimerQueue.step c.tb s.tq a with
          | some (q, e) => some ([], { s with tq := q, y := sync c s.y q, waits := Delay.waitsTq s.waits a e })
          | none => none
        else none
      | none => none
    else none
  | .pend i =>
    if decide (Esp32.top s.y.m.stack ≠ some c.th) && !s.inl && !s.y.m.off && (!isTaskB c n (c.own i) || runsB c s (c.own i)) then
      match EspSystem.next c.sys u0 n s.y (.code .userCs) with
      | some ([], y1) =>
        match EspSystem.next c.sys u0 n y1 (.code .raise) with
        | some ([], y2) =>
          match TimerQueue.step c.tb s.tq (.pend i) with
          | some (q1, _) =>
            match TimerQueue.step c.tb q1 .start with
            | some (q, _) => some ([], { s with tq := q, y := sync c y2 q, inl := true })
            | none => none
          | none => none
        | _ => none
      | _ => none
    else none
  | .pendRet =>
    if s.inl && decide (s.tq.h = .idle) then
      match EspSystem.next c.sys u0 n s.y (.code .unlock) with
      | some ([], y') => some ([], { s with y := y', inl := false })
      | _ => none
    else none

theorem next_sound {c : Cfg} {n k : Nat} {s s' : St} {a : Act} {ev : List (Nat × Executor.Ev)} {u0 : Nat → Nat → Bool} (hu0 : ∀ t r, u0 t r = true → c.sys.hw.uses t r) (hn : Small c n k) (hi : EspSystem.Idle c.sys s.y) (h : next c u0 n k s a = some (ev, s')) : Step c s a ev s' := by
  cases a with
  | clock m o p =>
    simp only [next] at h
    split at h
    · next q e hq => cases h; exact .clock m o p q e hq
    · cases h
  | sys x =>
    simp only [next] at h
    split at h
    · next hc =>
      split at h
      · next ev' y' hs =>
        cases h
        simp only [sysOkB, Bool.and_eq_true] at hc
        obtain ⟨⟨h1, h2⟩, h3⟩ := hc
        refine .sys x _ y' (EspSystem.next_sound hu0 hn.sys hi hs) (fun e => by subst e; simp at h1) (fun e => by subst e; simp at h1) (fun e => by subst e; simp at h1)
          (fun e => by simp [e] at h2; exact h2.1) (fun e => noOp_of hn (by simp [e] at h2; exact h2.2)) (fun e => by simpa [e] using h3) (fun e ht => by subst e; simpa [ht] using h1)
      · cases h
    · cases h
  | enter =>
    simp only [next] at h
    split at h
    · next y' q e hs hq => cases h; exact .enter y' q e (EspSystem.next_sound hu0 hn.sys hi hs) hq
    · cases h
  | hgo =>
    simp only [next] at h
    split at h
    · next hc =>
      simp only [Bool.and_eq_true] at hc
      obtain ⟨⟨h1, h2⟩, h3⟩ := hc
      split at h
      · next q e hq =>
        cases h
        refine .hgo q e (inHandler_of hn h1) (by simpa using h2) (fun wk hw ht => ?_) hq
        rw [hw] at h3
        simp [noTaskB, (isTask_iff hn).1 ht] at h3
      · cases h
    · cases h
  | arm x =>
    simp only [next] at h
    split at h
    · next hc =>
      split at h
      · next q e hq => cases h; exact .arm x q e (inHandler_of hn hc) hq
      · cases h
    · cases h
  | hcall =>
    simp only [next] at h
    split at h
    · next hc =>
      simp only [Bool.and_eq_true] at hc
      split at h
      · next wk hw =>
        split at h
        · next d hf =>
          split at h
          · next ts ht =>
            split at h
            · next hm =>
              split at h
              · next e' ev' hs => cases h; exact .hcall d ts wk e' ev' (inHandler_of hn hc.1) (by simpa using hc.2) hw ht hm hs
              · cases h
            · cases h
          · cases h
        · cases h
      · cases h
    · cases h
  | hacc =>
    simp only [next] at h
    split at h
    · next hc =>
      split at h
      · next d hcall =>
        split at h
        · next ts ht =>
          split at h
          · next e' ev' hs => cases h; exact .hacc d ts e' ev' (inHandler_of hn hc) hcall ht hs
          · cases h
        · cases h
      · cases h
    · cases h
  | hret =>
    simp only [next] at h
    split at h
    · next hc =>
      split at h
      · next d hcall =>
        split at h
        · next hidle =>
          split at h
          · next q e hq => cases h; exact .hret d q e (inHandler_of hn hc) hcall hidle hq
          · cases h
        · cases h
      · cases h
    · cases h
  | op x =>
    simp only [next] at h
    split at h
    · next hc =>
      simp only [Bool.and_eq_true] at hc
      obtain ⟨⟨⟨⟨⟨⟨⟨h7, h8⟩, h1⟩, h2⟩, h3⟩, h4⟩, h5⟩, h6⟩ := hc
      split at h
      · next i hop =>
        split at h
        · next hown =>
          split at h
          · next q e hq =>
            cases h
            exact .op x i q e (EspSystem.quiet_of hn.sys h1) (EspSystem.noCall_of hn.sys hi h2) (EspSystem.userCode_of h3) (by simpa using h4) (by simpa using h7) (by simpa using h8) hop (fun ht => runs_iff.2 (hown ((isTask_iff hn).1 ht)))
              (fun j wk e => by subst e; simpa [wkB] using h5) (fun e => noOp_of hn (by simpa [e] using h6)) hq
          · cases h
        · cases h
      · cases h
    · cases h
  | pend i =>
    simp only [next] at h
    split at h
    · next hc =>
      simp only [Bool.and_eq_true] at hc
      obtain ⟨⟨⟨h1, h2⟩, h3⟩, h4⟩ := hc
      split at h
      · next y1 hs1 =>
        have st1 := EspSystem.next_sound hu0 hn.sys hi hs1
        split at h
        · next y2 hs2 =>
          have st2 := EspSystem.next_sound hu0 hn.sys (EspSystem.idle_step hi st1) hs2
          split at h
          · next q1 e1 hq1 =>
            split at h
            · next q e2 hq2 =>
              cases h
              exact .pend i y1 y2 q1 q e1 e2 (by simpa using h1) (by simpa using h2) (by simpa using h3) (fun ht => runs_iff.2 (by simpa [(isTask_iff hn).1 ht] using h4)) st1 st2 hq1 hq2
            · cases h
          · cases h
        · cases h
      · cases h
    · cases h
  | pendRet =>
    simp only [next] at h
    split at h
    · next hc =>
      simp only [Bool.and_eq_true] at hc
      split at h
      · next y' hs =>
        cases h
        exact .pendRet y' hc.1 (by simpa using hc.2) (EspSystem.next_sound hu0 hn.sys hi hs)
      · cases h
    · cases h

theorem idle_step {c : Cfg} {s s' : St} {a : Act} {ev : List (Nat × Executor.Ev)} (hi : EspSystem.Idle c.sys s.y) (h : Step c s a ev s') : EspSystem.Idle c.sys s'.y := by
  cases h with
  | sys a ev y' hs => exact EspSystem.idle_step hi hs
  | enter y' q e hs => exact fun d' hn i => EspSystem.idle_step hi hs d' hn i
  | hcall d ts wk e' ev hh hc hw hd => exact fun d' hn i => EspSystem.idle_upd hi hd _ d' hn i
  | pend i y1 y2 q1 q e1 e2 hth hin hoff hown h1 h2 => exact fun d' hn i => EspSystem.idle_step (EspSystem.idle_step hi h1) h2 d' hn i
  | pendRet y' hin hidle hs => exact EspSystem.idle_step hi hs
  | hacc d ts e' ev hh hc hd => exact fun d' hn i => EspSystem.idle_upd hi hd _ d' hn i
  | _ => exact hi

theorem idle_exec {c : Cfg} {s s' : St} {as : List Act} {tr : List (Nat × Executor.Ev)} (hi : EspSystem.Idle c.sys s.y) (h : Exec c s as tr s') : EspSystem.Idle c.sys s'.y := by
  induction h with
  | nil => exact hi
  | snoc h hs ih => exact idle_step ih hs

/-- operations on other delays -/
def others (j : Nat) : Act → Bool
  | .op a => decide (opOf a ≠ some j)
  | .pend i => decide (i ≠ j)
  | _ => true

theorem pc_step {c : Cfg} {s s' : St} {a : Act} {ev : List (Nat × Executor.Ev)} {j : Nat} (h : Step c s a ev s') (ho : others j a = true) : s'.tq.pc j = s.tq.pc j := by
  cases h with
  | clock m o p q e hs => exact congrFun (hd_frame hs rfl) j
  | enter y' q e hs hq => exact congrFun (hd_frame hq rfl) j
  | hgo q e hh hc hw hq => exact congrFun (hd_frame hq rfl) j
  | arm x q e hh hq => exact congrFun (hd_frame hq rfl) j
  | hret d q e hh hc hi hq => exact congrFun (hd_frame hq rfl) j
  | pend i y1 y2 q1 q e1 e2 hth hin hoff hown h1 h2 hq1 hq2 =>
    have hne : i ≠ j := by simpa [others] using ho
    exact (congrFun (hd_frame hq2 rfl) j).trans ((op_frame hq1 rfl).2 j (Ne.symm hne))
  | op a i q e hqu hc huc hth hin hnp hi hown hwk hst hq =>
    refine (op_frame hq hi).2 j fun e => ?_
    subst e
    simp [others, hi] at ho
  | _ => rfl

theorem pc_exec {c : Cfg} {s s' : St} {as : List Act} {tr : List (Nat × Executor.Ev)} {j : Nat} (h : Exec c s as tr s') (ho : ∀ a ∈ as, others j a = true) : s'.tq.pc j = s.tq.pc j := by
  induction h with
  | nil => rfl
  | snoc h hs ih => rw [pc_step hs (ho _ (by simp)), ih (fun a ha => ho a (by simp [ha]))]

/-- an execution -/
def run (c : Cfg) (u0 : Nat → Nat → Bool) (n k : Nat) (s : St) : List Act → Option (List (Nat × Executor.Ev) × St)
  | [] => some ([], s)
  | a :: as =>
    match next c u0 n k s a with
    | none => none
    | some (ev, s1) =>
      match run c u0 n k s1 as with
      | none => none
      | some (tr, s2) => some (ev ++ tr, s2)

theorem exec_append {c : Cfg} {s s1 s2 : St} {as bs : List Act} {tr1 tr2 : List (Nat × Executor.Ev)} (h1 : Exec c s as tr1 s1) (h2 : Exec c s1 bs tr2 s2) : Exec c s (as ++ bs) (tr1 ++ tr2) s2 := by
  induction h2 with
  | nil => simpa using h1
  | snoc h hs ih => rw [← List.append_assoc, ← List.append_assoc]; exact .snoc ih hs

theorem run_sound {c : Cfg} {n k : Nat} {u0 : Nat → Nat → Bool} (hu0 : ∀ t r, u0 t r = true → c.sys.hw.uses t r) (hn : Small c n k) : ∀ {as : List Act} {s s' : St} {tr : List (Nat × Executor.Ev)}, EspSystem.Idle c.sys s.y → run c u0 n k s as = some (tr, s') → Exec c s as tr s'
  | [], s, s', tr, _, h => by cases h; exact .nil s
  | a :: as, s, s', tr, hi, h => by
    simp only [run] at h
    split at h
    · cases h
    · next ev s1 h1 =>
      split at h
      · cases h
      · next tr' s2 h2 =>
        cases h
        have hs := next_sound hu0 hn hi h1
        have := exec_append (Exec.snoc (Exec.nil s) hs) (run_sound hu0 hn (idle_step hi hs) h2)
        simpa using this

/-- the stack consists of these handlers, none of which is inside a critical section -/
def stackIs : List Nat → List Esp32.Rec → Bool
  | [], [] => true
  | h :: hs, .body h' _ _ :: l => decide (h = h') && stackIs hs l
  | _, _ => false

theorem stackIs_body : ∀ {hs : List Nat} {l : List Esp32.Rec}, stackIs hs l = true → ∀ x ∈ l, ∃ h prev i, x = .body h prev i
  | [], [], _ => by simp
  | h :: hs, x :: l, e => by
    cases x with
    | body h' prev i =>
      simp only [stackIs, Bool.and_eq_true, decide_eq_true_eq] at e
      intro y hy
      rcases List.mem_cons.1 hy with rfl | hy
      · exact ⟨_, _, _, rfl⟩
      · exact stackIs_body e.2 y hy
    | _ => simp [stackIs] at e
  | [], _ :: _, e => by simp [stackIs] at e
  | _ :: _, [], e => by simp [stackIs] at e

theorem stackIs_top {h : Nat} {hs : List Nat} {l : List Esp32.Rec} (e : stackIs (h :: hs) l = true) : Esp32.top l = some h := by
  cases l with
  | nil => simp [stackIs] at e
  | cons x l =>
    cases x with
    | body h' prev i =>
      simp only [stackIs, Bool.and_eq_true, decide_eq_true_eq] at e
      rw [e.1]; rfl
    | _ => simp [stackIs] at e

theorem stackIs_free {c : Esp32.Cfg} {q : Nat} {hs : List Nat} {l : List Esp32.Rec} (e : stackIs hs l = true) : ¬ Esp32.Blocked c q l := by
  rintro ⟨x, b, hsuf, hb, -⟩
  obtain ⟨h, prev, i, rfl⟩ := stackIs_body e x (hsuf.subset List.mem_cons_self)
  exact hb

/-! ## A concrete application -/

/-- Handlers: the thread (0), dispatchers of task 0 (1, priority 1), of task 2 (2, priority 2), of task 1 (3, priority 3), the timer interrupt (4, priority 15), a hardware task (5, priority 4). Delay `i` belongs to task `i`. -/
def demo : Cfg :=
  { sys :=
      { hw :=
          { prio := fun h => if h = 1 then 1 else if h = 2 then 2 else if h = 3 then 3 else if h = 4 then 15 else if h = 5 then 4 else 0
            uses := fun _ _ => False
            ceil := fun _ => 0 }
        tasks := fun h => if h = 1 then some [0] else if h = 2 then some [2] else if h = 3 then some [1] else none }
    tb := { w := 32, noop := true, sl := 0 }
    th := 4
    own := fun i => if i < 2 then i else 9 }

theorem demo_uses : ∀ t r, (fun _ _ => false : Nat → Nat → Bool) t r = true → demo.sys.hw.uses t r := by intro t r h; cases h

theorem demo_tasks {d : Nat} {ts : List Nat} (h : demo.sys.tasks d = some ts) : (d = 1 ∧ ts = [0]) ∨ (d = 2 ∧ ts = [2]) ∨ (d = 3 ∧ ts = [1]) := by
  simp only [demo] at h
  split at h
  · next e => cases h; exact .inl ⟨e, rfl⟩
  · split at h
    · next e => cases h; exact .inr (.inl ⟨e, rfl⟩)
    · split at h
      · next e => cases h; exact .inr (.inr ⟨e, rfl⟩)
      · cases h

theorem demo_wf : WellFormed demo where
  hw := ⟨fun t => by simp only [demo]; (repeat' split) <;> omega, fun _ _ h => h.elim, fun r => by simp [demo]⟩
  thread := rfl
  th := rfl
  prioTh := rfl
  prio := fun t ht => by
    have : t ≠ 4 := ht
    simp only [demo]; (repeat' split) <;> omega
  uniq := fun d ts d' ts' t h h' ht ht' => by
    rcases demo_tasks h with ⟨rfl, rfl⟩ | ⟨rfl, rfl⟩ | ⟨rfl, rfl⟩ <;> rcases demo_tasks h' with ⟨rfl, rfl⟩ | ⟨rfl, rfl⟩ | ⟨rfl, rfl⟩ <;> simp_all
  width := by show 0 < 32; decide

theorem demo_small : Small demo 6 2 where
  sys := ⟨fun h hh => by simp only [demo]; repeat' split
                         all_goals omega, fun h hh => by
    simp only [demo]
    repeat' split
    all_goals first | rfl | omega⟩
  own := fun i hi d ts h => by
    have : demo.own i = 9 := by simp only [demo]; rw [if_neg (by omega)]
    rw [this]
    rcases demo_tasks h with ⟨-, rfl⟩ | ⟨-, rfl⟩ | ⟨-, rfl⟩ <;> decide

/-- `init` has spawned task `t` of dispatcher `d` -/
def demoStart (d t : Nat) : St :=
  { y := { m := Esp32.start 0 1, pend := fun _ => false, ex := fun h => if h = d then spawned [t] t else Executor.init }, tq := TimerQueue.init true, call := none, inl := false, waits := fun _ => false }

theorem demo_start {d t : Nat} (hd : demo.sys.tasks d = some [t]) : Start demo 1 (demoStart d t) where
  m := rfl
  calls := fun d' ts h => by
    have hz : demo.sys.exec d' ts = { ts := ts, zero := false } := by
      rcases demo_tasks h with ⟨rfl, rfl⟩ | ⟨rfl, rfl⟩ | ⟨rfl, rfl⟩ <;> rfl
    rw [hz]
    by_cases e : d' = d
    · subst e
      rw [hd] at h; cases h
      obtain ⟨tr, hx⟩ := spawned_eq [t] t List.mem_cons_self
      refine ⟨initSpawn t, tr, ?_, by simpa [demoStart] using hx⟩
      intro a ha
      simp only [initSpawn, List.mem_cons, List.not_mem_nil, or_false] at ha
      rcases ha with rfl | rfl | rfl | rfl | rfl <;> exact ⟨rfl, fun _ _ => ⟨by simp, by simp⟩⟩
    · exact ⟨[], [], by simp, by simp only [demoStart, if_neg e]; rfl⟩
  over := fun d' i => by
    simp only [demoStart]
    split
    · exact spawned_idle _ _ _ List.mem_cons_self
    · rfl
  tq := rfl
  line := rfl
  call := rfl
  inl := rfl
  waits := fun _ => rfl

theorem demo_idle {d t : Nat} (hd : demo.sys.tasks d = some [t]) : EspSystem.Idle demo.sys (demoStart d t).y := fun d' _ i => (demo_start hd).over d' i

/-- the interrupt of dispatcher `h` is taken, and it begins to poll its task -/
def polls (h : Nat) : List Act := [.sys (.irq h), .sys (.unpend h), .sys (.code .readInitial), .sys (.disp h false), .sys (.disp h false), .sys (.disp h false)]

/-- the future returns `Pending`, and the dispatcher ends -/
def ends (h : Nat) : List Act := [.sys (.disp h false), .sys (.disp h false), .sys (.code .finish), .sys (.code .ret)]

/-- Task 0 creates a delay for time 10 and inserts it as the earliest one. Before it has called `pend_interrupt` a hardware task preempts it and spawns task 2 and task 1. Task 1 runs first and awaits a delay until time 20: it is not the earliest one, so that nobody calls the timer handler for it. Then task 2 runs on and on. -/
def inversion : List Act :=
  polls 1 ++ [.op (.create 0 10), .op (.poll 0 0), .op (.ins 0), .sys (.hw 5), .sys (.irq 5), .sys (.code .readInitial), .sys (.spawn 2 2 7), .sys (.call 2), .sys (.call 2), .sys (.call 2), .sys (.call 2), .sys (.spawn 3 1 7), .sys (.call 3), .sys (.call 3), .sys (.call 3), .sys (.call 3), .sys (.unhw 5),
    .sys (.code .finish), .sys (.code .ret)] ++ polls 3 ++ [.op (.create 1 20), .op (.poll 1 1), .op (.ins 1)] ++ ends 3 ++ polls 2 ++ List.replicate 40 (.clock false false false)

/-- what holds after `inversion` -/
def inverted (s : St) : Bool :=
  s.waits 1 && decide (s.tq.inst 1 + 20 ≤ s.tq.now) && stackIs [2, 1, 0] s.y.m.stack && (next demo (fun _ _ => false) 6 2 s (.sys (.code .userCs))).isSome

theorem inversion_run : (match run demo (fun _ _ => false) 6 2 (demoStart 1 0) inversion with | some (_, s) => inverted s | none => false) = true := by decide +kernel

/-- **C106, violated without the condition**: a task of priority 3 awaits a delay that has expired 20 ticks ago, nothing blocks priority 3, and a task of priority 2 runs on: the timer interrupt has not been armed, since a task of priority 1 is preempted between inserting an earlier delay and calling `pend_interrupt`. -/
theorem C106_priority_inversion_violated : ∃ (c : Cfg) (st s2 s3 : St) (as : List Act) (a : Act) (tr ev : List (Nat × Executor.Ev)) (i d cur : Nat) (ts : List Nat), WellFormed c ∧ Start c 1 st ∧ Exec c st as tr s2 ∧ c.sys.tasks d = some ts ∧ c.own i ∈ ts ∧ c.sys.hw.prio d = 3 ∧
    s2.waits i = true ∧ s2.tq.inst i + 20 ≤ s2.tq.now ∧ ¬ Esp32.Blocked c.sys.hw 3 s2.y.m.stack ∧ Esp32.top s2.y.m.stack = some cur ∧ c.sys.hw.prio cur = 2 ∧ a.own = true ∧ Step c s2 a ev s3 := by
  have h := inversion_run
  split at h
  · next tr s hr =>
    simp only [inverted, Bool.and_eq_true, decide_eq_true_eq, Option.isSome_iff_exists] at h
    obtain ⟨⟨⟨h1, h2⟩, h3⟩, ⟨ev, s3⟩, h4⟩ := h
    have hx := run_sound demo_uses demo_small (demo_idle rfl) hr
    have hi := idle_exec (demo_idle rfl) hx
    exact ⟨demo, _, s, s3, _, _, tr, ev, 1, 3, 2, [1], demo_wf, demo_start rfl, hx, rfl, by decide, rfl, h1, h2, stackIs_free h3, stackIs_top h3, rfl, rfl, next_sound demo_uses demo_small hi h4⟩
  · cases h

/-- Task 1 awaits a delay until time 20; `pend_interrupt` calls the timer handler, which arms the compare for it, and returns; the processor idles; at time 20 the hardware raises the interrupt. -/
def expiry : List Act :=
  polls 3 ++ [.op (.create 1 20), .op (.poll 1 1), .op (.ins 1), .pend 1, .hgo, .hgo, .hgo, .hgo, .arm 20, .hgo, .pendRet] ++ ends 3 ++ List.replicate 19 (.clock false false false) ++ [.clock true false false]

/-- what holds after `expiry` -/
def expired (s : St) : Bool :=
  s.waits 1 && decide (s.tq.inst 1 ≤ s.tq.now) && decide (s.tq.pc 1 ≠ .p2) && stackIs [0] s.y.m.stack &&
    match run demo (fun _ _ => false) 6 2 s [.enter] with
    | some (_, s') => s'.waits 1 && decide (s'.tq.inst 1 ≤ s'.tq.now) && decide (Esp32.top s'.y.m.stack = some 4) && (next demo (fun _ _ => false) 6 2 s' (.sys (.code .readInitial))).isSome
    | none => false

theorem expiry_run : (match run demo (fun _ _ => false) 6 2 (demoStart 3 1) expiry with | some (_, s) => expired s | none => false) = true := by decide +kernel

theorem expiry_others (j : Nat) (hj : j ≠ 1) : ∀ a ∈ expiry, others j a = true := by
  intro a ha
  simp only [expiry, polls, ends, List.mem_append, List.mem_cons, List.not_mem_nil, or_false, List.mem_replicate] at ha
  simp only [or_assoc] at ha
  repeat' (rcases ha with rfl | ha)
  all_goals first | rfl | (simp [others, opOf]; omega) | skip
  rcases ha with ha | ha
  · rw [ha.2]; rfl
  · rw [ha]; rfl

/-- Non-vacuity of `C106_expired_runs_first_partial`: the delay of task 1 expires while the processor idles, the timer interrupt is taken, the task still waits, and the handler makes the next step. -/
example : WellFormed demo ∧ ∃ st s2 s3 as0 as tr0, Start demo 1 st ∧ Exec demo st as0 tr0 s2 ∧ demo.sys.tasks 3 = some [1] ∧ demo.own 1 ∈ [1] ∧ Esp32.top s2.y.m.stack = some 0 ∧
    While demo (fun s => s.waits 1 = true ∧ Overdue demo 1 s ∧ ¬ HeldUp demo (demo.sys.hw.prio 3) s) s2 as s3 ∧ as ≠ [] ∧ ∃ a ev s4, Step demo s3 a ev s4 ∧ a.own = true ∧ Esp32.top s3.y.m.stack = some 4 := by
  have h := expiry_run
  split at h
  · next tr s hr =>
    unfold expired at h
    rw [Bool.and_eq_true] at h
    obtain ⟨h, h5⟩ := h
    split at h5
    · next ev1 s1 hn1 =>
      simp only [Bool.and_eq_true, decide_eq_true_eq, Option.isSome_iff_exists] at h h5
      obtain ⟨⟨⟨h1, h2⟩, h3⟩, h4⟩ := h
      obtain ⟨⟨⟨g1, g2⟩, g3⟩, ⟨ev2, s2⟩, hn2⟩ := h5
      have hx := run_sound demo_uses demo_small (demo_idle rfl) hr
      have hi := idle_exec (demo_idle rfl) hx
      have hn1 : ∃ e, next demo (fun _ _ => false) 6 2 s .enter = some (e, s1) := by
        simp only [run] at hn1
        split at hn1
        · cases hn1
        · next e s' he => cases hn1; exact ⟨e, he⟩
      obtain ⟨e1, hn1⟩ := hn1
      have st1 := next_sound demo_uses demo_small hi hn1
      have st2 := next_sound demo_uses demo_small (idle_step hi st1) hn2
      have hp1 : s.tq.pc 1 ≠ .p2 := by simpa using h3
      have hheld : ¬ HeldUp demo (demo.sys.hw.prio 3) s := by
        rintro ⟨j, hj, -⟩
        by_cases e : j = 1
        · subst e; exact hp1 hj
        · rw [pc_exec hx (expiry_others j e)] at hj; cases hj
      have hheld' : ¬ HeldUp demo (demo.sys.hw.prio 3) s1 := by
        rintro ⟨j, hj, hq⟩
        rw [pc_step st1 rfl] at hj
        exact hheld ⟨j, hj, hq⟩
      exact ⟨demo_wf, _, s, s1, _, [.enter], tr, demo_start rfl, hx, rfl, by decide, stackIs_top h4, .snoc (.nil ⟨h1, h2, hheld⟩) st1 ⟨g1, g2, hheld'⟩, by simp, _, ev2, s2, st2, rfl, g3⟩
    · cases h5
  · cases h

/-- task 1 has inserted its delay and calls `pend_interrupt` -/
def calling : List Act := polls 3 ++ [.op (.create 1 20), .op (.poll 1 1), .op (.ins 1)]

def called (s : St) : Bool :=
  decide (s.tq.pc 1 = .p2) && EspSystem.quietB demo.sys 6 s.y && EspSystem.noCallB 6 s.y && EspSystem.userCodeB demo.sys s.y && decide (Esp32.top s.y.m.stack = some 3) && !s.inl && !s.y.m.off && runsB demo s 1

theorem calling_run : (match run demo (fun _ _ => false) 6 2 (demoStart 3 1) calling with | some (_, s) => called s | none => false) = true := by decide +kernel

/-- Non-vacuity of `C106_pend_possible` -/
example : ∃ st s as tr, Start demo 1 st ∧ Exec demo st as tr s ∧ s.tq.pc 1 = .p2 ∧ EspSystem.quiet demo.sys s.y ∧ EspSystem.noCall s.y ∧ EspSystem.userCode demo.sys s.y ∧ Esp32.top s.y.m.stack ≠ some demo.th ∧ s.inl = false ∧ s.y.m.off = false ∧ (isTask demo (demo.own 1) → runsTask demo s (demo.own 1)) := by
  have h := calling_run
  split at h
  · next tr s hr =>
    simp only [called, Bool.and_eq_true, decide_eq_true_eq] at h
    obtain ⟨⟨⟨⟨⟨⟨⟨h1, h2⟩, h3⟩, h4⟩, h5⟩, h6⟩, h7⟩, h8⟩ := h
    have hx := run_sound demo_uses demo_small (demo_idle rfl) hr
    have hi := idle_exec (demo_idle rfl) hx
    exact ⟨_, s, _, tr, demo_start rfl, hx, h1, EspSystem.quiet_of demo_small.sys h2, EspSystem.noCall_of demo_small.sys hi h3, EspSystem.userCode_of h4, by rw [h5]; decide, by simpa using h6, by simpa using h7, fun _ => runs_iff.2 h8⟩
  · cases h

end Verif.EspTimed
