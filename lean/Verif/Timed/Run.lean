import Verif.Timed.Props
import Verif.System.Run
import Verif.Backends.Model

/-!
# Executable version of `Verif.Timed`, for concrete executions; C83 is violated without the condition

`next` computes a step; `next_sound` proves that what it computes is a step of the relation.
-/

namespace Verif.Timed

open Verif

/-- `n` handlers, `k` delays of tasks -/
structure Small (c : Cfg) (n k : Nat) : Prop where
  sys : System.Small c.sys n
  own : ∀ i, k ≤ i → ∀ d ts, c.sys.tasks d = some ts → c.own i ∉ ts

def runsB (c : Cfg) (s : St) (t : Nat) : Bool :=
  match Srp.top s.y.m.stack with
  | some d =>
    match c.sys.tasks d, (s.y.ex d).d with
    | some ts, .body t' _ => decide (t ∈ ts) && decide (t' = t)
    | _, _ => false
  | none => false

theorem runs_iff {c : Cfg} {s : St} {t : Nat} : runsTask c s t ↔ runsB c s t = true := by
  unfold runsTask runsB
  constructor
  · rintro ⟨d, ts, rest, h1, h2, h3, h4⟩
    simp [h1, h2, h3, h4]
  · intro h
    split at h
    · next d hd =>
      split at h
      · next ts t' rest h1 h2 =>
        simp only [Bool.and_eq_true, decide_eq_true_eq] at h
        obtain ⟨h3, rfl⟩ := h
        exact ⟨d, ts, rest, h1, h3, hd, h2⟩
      · cases h
    · cases h

def isTaskB (c : Cfg) (n t : Nat) : Bool := (List.range n).any fun d =>
  match c.sys.tasks d with
  | some ts => decide (t ∈ ts)
  | none => false

theorem isTask_iff {c : Cfg} {n k t : Nat} (hn : Small c n k) : isTask c t ↔ isTaskB c n t = true := by
  unfold isTask isTaskB
  rw [List.any_eq_true]
  constructor
  · rintro ⟨d, ts, h1, h2⟩
    refine ⟨d, List.mem_range.2 (Nat.lt_of_not_le fun hle => ?_), by simp [h1, h2]⟩
    rw [hn.sys.tasks d hle] at h1; cases h1
  · rintro ⟨d, -, h⟩
    split at h
    · next ts ht => exact ⟨d, ts, ht, by simpa using h⟩
    · cases h

def noOpB (c : Cfg) (k : Nat) (s : St) : Bool := (List.range k).all fun i => !runsB c s (c.own i) || decide (s.tq.pc i = .none) || decide (s.tq.pc i = .alive)

theorem noOp_of {c : Cfg} {n k : Nat} {s : St} (hn : Small c n k) (h : noOpB c k s = true) : noOp c s := by
  intro i hr
  by_cases hlt : i < k
  · have := List.all_eq_true.1 h i (List.mem_range.2 hlt)
    rw [runs_iff.1 hr] at this
    simpa using this
  · obtain ⟨d, ts, rest, h1, h2, -, -⟩ := hr
    exact absurd h2 (hn.own i (Nat.le_of_not_lt hlt) d ts h1)

def inHandlerB (c : Cfg) (n : Nat) (s : St) : Bool :=
  System.quietB c.sys n s.y &&
    match s.y.m.stack with
    | .body h _ :: _ => decide (h = c.th)
    | _ => false

theorem inHandler_of {c : Cfg} {n k : Nat} {s : St} (hn : Small c n k) (h : inHandlerB c n s = true) : inHandler c s := by
  unfold inHandlerB at h
  rw [Bool.and_eq_true] at h
  refine ⟨System.quiet_of hn.sys h.1, ?_⟩
  have h2 := h.2
  split at h2
  · next x i rest hs => simp only [decide_eq_true_eq] at h2; exact ⟨i, rest, by rw [hs, h2]⟩
  · cases h2

def sysOkB (c : Cfg) (k : Nat) (s : St) (a : System.Act) : Bool :=
  (match a with
   | .hw h | .unhw h | .irq h => decide (h ≠ c.th)
   | .code .finish => decide (Srp.top s.y.m.stack ≠ some c.th) || decide (s.tq.h = .idle)
   | _ => true) && (!a.own || noOpB c k s) && (!userAct a || decide (Srp.top s.y.m.stack ≠ some c.th))

def noTaskB (c : Cfg) (n : Nat) : TimerQueue.Hpc → Bool
  | .h2 wk => !isTaskB c n wk
  | _ => true

def wkB (c : Cfg) : TimerQueue.Act → Bool
  | .poll j wk => decide (wk = c.own j)
  | _ => true

/-- one step of the machine -/
def next (c : Cfg) (n k : Nat) (s : St) : Act → Option (List (Nat × Executor.Ev) × St)
  | .clock m o p =>
    match TimerQueue.step c.tb s.tq (.tick m o p) with
    | some (q, _) => some ([], { s with tq := q, y := sync c s.y q })
    | none => none
  | .sys a =>
    if sysOkB c k s a then
      match System.next c.sys n s.y a with
      | some (ev, y') => some (ev, { s with y := y', waits := waitsEx c.own s.waits ev })
      | none => none
    else none
  | .enter =>
    match System.next c.sys n s.y (.irq c.th), TimerQueue.step c.tb s.tq .start with
    | some ([], y'), some (q, _) => some ([], { s with tq := q, y := sync c y' q })
    | _, _ => none
  | .hgo =>
    if inHandlerB c n s && decide (s.call = none) && noTaskB c n s.tq.h then
      match TimerQueue.step c.tb s.tq .hgo with
      | some (q, _) => some ([], { s with tq := q, y := sync c s.y q })
      | none => none
    else none
  | .arm x =>
    if inHandlerB c n s then
      match TimerQueue.step c.tb s.tq (.arm x) with
      | some (q, _) => some ([], { s with tq := q, y := sync c s.y q })
      | none => none
    else none
  | .hcall =>
    if inHandlerB c n s && decide (s.call = none) then
      match s.tq.h with
      | .h2 wk =>
        match (List.range n).find? fun d => match c.sys.tasks d with | some ts => decide (wk ∈ ts) | none => false with
        | some d =>
          match c.sys.tasks d with
          | some ts =>
            if wk ∈ ts then
              match Executor.step (c.sys.exec d ts) (s.y.ex d) (.callWake 0 wk) with
              | some (e', ev) => some (ev.map (d, ·), { s with y := { s.y with ex := System.upd s.y.ex d e' }, call := some d })
              | none => none
            else none
          | none => none
        | none => none
      | _ => none
    else none
  | .hacc =>
    if inHandlerB c n s then
      match s.call with
      | some d =>
        match c.sys.tasks d with
        | some ts =>
          match Executor.step (c.sys.exec d ts) (s.y.ex d) (.thr 0) with
          | some (e', ev) => some (ev.map (d, ·), { s with y := { s.y with ex := System.upd s.y.ex d e' }, waits := waitsEx c.own s.waits (ev.map (d, ·)) })
          | none => none
        | none => none
      | none => none
    else none
  | .hret =>
    if inHandlerB c n s then
      match s.call with
      | some d =>
        if (s.y.ex d).pc 0 = .idle then
          match TimerQueue.step c.tb s.tq .hgo with
          | some (q, _) => some ([], { s with tq := q, y := sync c s.y q, call := none })
          | none => none
        else none
      | none => none
    else none
  | .op a =>
    if System.quietB c.sys n s.y && System.noCallB n s.y && System.userCodeB c.sys s.y && decide (Srp.top s.y.m.stack ≠ some c.th) && wkB c a && (!opStart a || noOpB c k s) then
      match opOf a with
      | some i =>
        if isTaskB c n (c.own i) = true → runsB c s (c.own i) = true then
          match TimerQueue.step c.tb s.tq a with
          | some (q, e) => some ([], { s with tq := q, y := sync c s.y q, waits := Delay.waitsTq s.waits a e })
          | none => none
        else none
      | none => none
    else none

theorem next_sound {c : Cfg} {n k : Nat} {s s' : St} {a : Act} {ev : List (Nat × Executor.Ev)} (hn : Small c n k) (hi : System.Idle c.sys s.y) (h : next c n k s a = some (ev, s')) : Step c s a ev s' := by
  cases a with
  | clock m o p =>
    simp only [next] at h
    split at h
    · next q e hq => cases h; exact .clock m o p q e hq
    · cases h
  | sys x =>
    simp only [next] at h
    split at h
    · next hc =>
      split at h
      · next ev' y' hs =>
        cases h
        simp only [sysOkB, Bool.and_eq_true] at hc
        obtain ⟨⟨h1, h2⟩, h3⟩ := hc
        refine .sys x _ y' (System.next_sound hn.sys hi hs) (fun e => by subst e; simp at h1) (fun e => by subst e; simp at h1) (fun e => by subst e; simp at h1)
          (fun e => noOp_of hn (by simpa [e] using h2)) (fun e => by simpa [e] using h3) (fun e ht => by subst e; simpa [ht] using h1)
      · cases h
    · cases h
  | enter =>
    simp only [next] at h
    split at h
    · next y' q e hs hq => cases h; exact .enter y' q e (System.next_sound hn.sys hi hs) hq
    · cases h
  | hgo =>
    simp only [next] at h
    split at h
    · next hc =>
      simp only [Bool.and_eq_true] at hc
      obtain ⟨⟨h1, h2⟩, h3⟩ := hc
      split at h
      · next q e hq =>
        cases h
        refine .hgo q e (inHandler_of hn h1) (by simpa using h2) (fun wk hw ht => ?_) hq
        rw [hw] at h3
        simp [noTaskB, (isTask_iff hn).1 ht] at h3
      · cases h
    · cases h
  | arm x =>
    simp only [next] at h
    split at h
    · next hc =>
      split at h
      · next q e hq => cases h; exact .arm x q e (inHandler_of hn hc) hq
      · cases h
    · cases h
  | hcall =>
    simp only [next] at h
    split at h
    · next hc =>
      simp only [Bool.and_eq_true] at hc
      split at h
      · next wk hw =>
        split at h
        · next d hf =>
          split at h
          · next ts ht =>
            split at h
            · next hm =>
              split at h
              · next e' ev' hs => cases h; exact .hcall d ts wk e' ev' (inHandler_of hn hc.1) (by simpa using hc.2) hw ht hm hs
              · cases h
            · cases h
          · cases h
        · cases h
      · cases h
    · cases h
  | hacc =>
    simp only [next] at h
    split at h
    · next hc =>
      split at h
      · next d hcall =>
        split at h
        · next ts ht =>
          split at h
          · next e' ev' hs => cases h; exact .hacc d ts e' ev' (inHandler_of hn hc) hcall ht hs
          · cases h
        · cases h
      · cases h
    · cases h
  | hret =>
    simp only [next] at h
    split at h
    · next hc =>
      split at h
      · next d hcall =>
        split at h
        · next hidle =>
          split at h
          · next q e hq => cases h; exact .hret d q e (inHandler_of hn hc) hcall hidle hq
          · cases h
        · cases h
      · cases h
    · cases h
  | op x =>
    simp only [next] at h
    split at h
    · next hc =>
      simp only [Bool.and_eq_true] at hc
      obtain ⟨⟨⟨⟨⟨h1, h2⟩, h3⟩, h4⟩, h5⟩, h6⟩ := hc
      split at h
      · next i hop =>
        split at h
        · next hown =>
          split at h
          · next q e hq =>
            cases h
            exact .op x i q e (System.quiet_of hn.sys h1) (System.noCall_of hn.sys hi h2) (System.userCode_of h3) (by simpa using h4) hop (fun ht => runs_iff.2 (hown ((isTask_iff hn).1 ht)))
              (fun j wk e => by subst e; simpa [wkB] using h5) (fun e => noOp_of hn (by simpa [e] using h6)) hq
          · cases h
        · cases h
      · cases h
    · cases h

theorem idle_step {c : Cfg} {s s' : St} {a : Act} {ev : List (Nat × Executor.Ev)} (hi : System.Idle c.sys s.y) (h : Step c s a ev s') : System.Idle c.sys s'.y := by
  cases h with
  | sys a ev y' hs => exact System.idle_step hi hs
  | enter y' q e hs => exact fun d' hn i => System.idle_step hi hs d' hn i
  | hcall d ts wk e' ev hh hc hw hd => exact fun d' hn i => System.idle_upd hi hd _ d' hn i
  | hacc d ts e' ev hh hc hd => exact fun d' hn i => System.idle_upd hi hd _ d' hn i
  | _ => exact hi

theorem idle_exec {c : Cfg} {s s' : St} {as : List Act} {tr : List (Nat × Executor.Ev)} (hi : System.Idle c.sys s.y) (h : Exec c s as tr s') : System.Idle c.sys s'.y := by
  induction h with
  | nil => exact hi
  | snoc h hs ih => exact idle_step ih hs

/-- operations on other delays -/
def others (j : Nat) : Act → Bool
  | .op a => decide (opOf a ≠ some j)
  | _ => true

theorem pc_step {c : Cfg} {s s' : St} {a : Act} {ev : List (Nat × Executor.Ev)} {j : Nat} (h : Step c s a ev s') (ho : others j a = true) : s'.tq.pc j = s.tq.pc j := by
  cases h with
  | clock m o p q e hs => exact congrFun (hd_frame hs rfl) j
  | enter y' q e hs hq => exact congrFun (hd_frame hq rfl) j
  | hgo q e hh hc hw hq => exact congrFun (hd_frame hq rfl) j
  | arm x q e hh hq => exact congrFun (hd_frame hq rfl) j
  | hret d q e hh hc hi hq => exact congrFun (hd_frame hq rfl) j
  | op a i q e hqu hc huc hth hi hown hwk hst hq =>
    refine (op_frame hq hi).2 j fun e => ?_
    subst e
    simp [others, hi] at ho
  | _ => rfl

theorem pc_exec {c : Cfg} {s s' : St} {as : List Act} {tr : List (Nat × Executor.Ev)} {j : Nat} (h : Exec c s as tr s') (ho : ∀ a ∈ as, others j a = true) : s'.tq.pc j = s.tq.pc j := by
  induction h with
  | nil => rfl
  | snoc h hs ih => rw [pc_step hs (ho _ (by simp)), ih (fun a ha => ho a (by simp [ha]))]

/-- an execution -/
def run (c : Cfg) (n k : Nat) (s : St) : List Act → Option (List (Nat × Executor.Ev) × St)
  | [] => some ([], s)
  | a :: as =>
    match next c n k s a with
    | none => none
    | some (ev, s1) =>
      match run c n k s1 as with
      | none => none
      | some (tr, s2) => some (ev ++ tr, s2)

theorem exec_append {c : Cfg} {s s1 s2 : St} {as bs : List Act} {tr1 tr2 : List (Nat × Executor.Ev)} (h1 : Exec c s as tr1 s1) (h2 : Exec c s1 bs tr2 s2) : Exec c s (as ++ bs) (tr1 ++ tr2) s2 := by
  induction h2 with
  | nil => simpa using h1
  | snoc h hs ih => rw [← List.append_assoc, ← List.append_assoc]; exact .snoc ih hs

theorem run_sound {c : Cfg} {n k : Nat} (hn : Small c n k) : ∀ {as : List Act} {s s' : St} {tr : List (Nat × Executor.Ev)}, System.Idle c.sys s.y → run c n k s as = some (tr, s') → Exec c s as tr s'
  | [], s, s', tr, _, h => by cases h; exact .nil s
  | a :: as, s, s', tr, hi, h => by
    simp only [run] at h
    split at h
    · cases h
    · next ev s1 h1 =>
      split at h
      · cases h
      · next tr' s2 h2 =>
        cases h
        have hs := next_sound hn hi h1
        have := exec_append (Exec.snoc (Exec.nil s) hs) (run_sound hn (idle_step hi hs) h2)
        simpa using this

/-! ## A concrete application -/

/-- Handlers: the thread (0), dispatchers of task 0 (1, priority 1), of task 2 (2, priority 2), of task 1 (3, priority 3), the timer interrupt (4, priority `w`), a hardware task (5, priority `x`). Delay `i` belongs to task `i`. -/
def demo (w x : Nat) : Cfg :=
  { sys := { srp := { bits := 3, prio := fun h => if h = 1 then 1 else if h = 2 then 2 else if h = 3 then 3 else if h = 4 then w else if h = 5 then x else 0, uses := fun _ _ => False, ceil := fun _ => 0 },
             tasks := fun h => if h = 1 then some [0] else if h = 2 then some [2] else if h = 3 then some [1] else none },
    tb := { w := 32, noop := true, sl := 0 }, th := 4, own := fun i => if i < 2 then i else 9 }

theorem demo_tasks {w x d : Nat} {ts : List Nat} (h : (demo w x).sys.tasks d = some ts) : (d = 1 ∧ ts = [0]) ∨ (d = 2 ∧ ts = [2]) ∨ (d = 3 ∧ ts = [1]) := by
  simp only [demo] at h
  split at h
  · next e => cases h; exact .inl ⟨e, rfl⟩
  · split at h
    · next e => cases h; exact .inr (.inl ⟨e, rfl⟩)
    · split at h
      · next e => cases h; exact .inr (.inr ⟨e, rfl⟩)
      · cases h

theorem demo_wf {w x : Nat} (hw : 1 ≤ w) (hw8 : w ≤ 8) (hx : x ≤ 8) : WellFormed (demo w x) where
  srp := by
    refine ⟨?_, fun t => ?_, fun _ _ h => h.elim, fun _ => Nat.zero_le _⟩
    · show 3 ≤ 7
      decide
    · simp only [demo]
      repeat' split
      all_goals omega
  thread := rfl
  th := rfl
  prio1 := hw
  uniq := fun d ts d' ts' t h h' ht ht' => by
    rcases demo_tasks h with ⟨rfl, rfl⟩ | ⟨rfl, rfl⟩ | ⟨rfl, rfl⟩ <;> rcases demo_tasks h' with ⟨rfl, rfl⟩ | ⟨rfl, rfl⟩ | ⟨rfl, rfl⟩ <;> simp_all
  width := by show 0 < 32; decide

theorem demo_small (w x : Nat) : Small (demo w x) 6 2 where
  sys := ⟨fun h hh => by simp only [demo]; repeat' split
                         all_goals omega, fun h hh => by
    simp only [demo]
    repeat' split
    all_goals first | rfl | omega⟩
  own := fun i hi d ts h => by
    have : (demo w x).own i = 9 := by simp only [demo]; rw [if_neg (by omega)]
    rw [this]
    rcases demo_tasks h with ⟨-, rfl⟩ | ⟨-, rfl⟩ | ⟨-, rfl⟩ <;> decide

/-- the accesses of `spawn`, called in `init` -/
def initSpawn (t : Nat) : List Executor.Act := [.callSpawn 1 t 5, .thr 1, .thr 1, .thr 1, .thr 1]

def spawned (ts : List Nat) (t : Nat) : Executor.St :=
  match Executor.exec { ts := ts, zero := false } Executor.init (initSpawn t) with
  | some (e, _) => e
  | none => Executor.init

theorem spawned_eq (ts : List Nat) (t : Nat) (h : t ∈ ts) : ∃ tr, Executor.exec { ts := ts, zero := false } Executor.init (initSpawn t) = some (spawned ts t, tr) := by
  have : (Executor.exec { ts := ts, zero := false } Executor.init (initSpawn t)).isSome = true := by
    simp [Executor.exec, initSpawn, Executor.step, Executor.stepThr, Executor.init, Executor.upd, h]
  unfold spawned
  cases hx : Executor.exec { ts := ts, zero := false } Executor.init (initSpawn t) with
  | none => rw [hx] at this; cases this
  | some r => exact ⟨r.2, rfl⟩

theorem spawned_idle (ts : List Nat) (t i : Nat) (h : t ∈ ts) : (spawned ts t).pc i = .idle := by
  simp [spawned, Executor.exec, initSpawn, Executor.step, Executor.stepThr, Executor.init, Executor.upd, h]
  intro hi
  simp [hi]

/-- `init` has spawned task `t` of dispatcher `d` -/
def demoStart (d t : Nat) : St :=
  { y := { m := Srp.start 0, pend := fun _ => false, ex := fun h => if h = d then spawned [t] t else Executor.init }, tq := TimerQueue.init true, call := none, waits := fun _ => false }

theorem demo_start {w x d t : Nat} (hd : (demo w x).sys.tasks d = some [t]) : Start (demo w x) (demoStart d t) where
  m := rfl
  calls := fun d' ts h => by
    have hz : (demo w x).sys.exec d' ts = { ts := ts, zero := false } := by
      rcases demo_tasks h with ⟨rfl, rfl⟩ | ⟨rfl, rfl⟩ | ⟨rfl, rfl⟩ <;> rfl
    rw [hz]
    by_cases e : d' = d
    · subst e
      rw [hd] at h; cases h
      obtain ⟨tr, hx⟩ := spawned_eq [t] t List.mem_cons_self
      refine ⟨initSpawn t, tr, ?_, by simpa [demoStart] using hx⟩
      intro a ha
      simp only [initSpawn, List.mem_cons, List.not_mem_nil, or_false] at ha
      rcases ha with rfl | rfl | rfl | rfl | rfl <;> exact ⟨rfl, fun _ _ => ⟨by simp, by simp⟩⟩
    · exact ⟨[], [], by simp, by simp only [demoStart, if_neg e]; rfl⟩
  over := fun d' i => by
    simp only [demoStart]
    split
    · exact spawned_idle _ _ _ List.mem_cons_self
    · rfl
  tq := rfl
  line := rfl
  call := rfl
  waits := fun _ => rfl

theorem demo_idle {w x d t : Nat} (hd : (demo w x).sys.tasks d = some [t]) : System.Idle (demo w x).sys (demoStart d t).y := fun d' _ i => (demo_start hd).over d' i

/-- Task 0 creates a delay for time 10 and inserts it as the earliest one. Before it has pended the timer interrupt a hardware task preempts it and spawns task 2 and task 1. Task 1 runs first and awaits a delay until time 20: it is not the earliest one, so that `poll` does not pend the interrupt.
Then task 2 runs on and on. -/
def inversion : List Act :=
  [.sys (.irq 1), .sys (.code .readInitial), .sys (.disp 1 false), .sys (.disp 1 false), .sys (.disp 1 false), .op (.create 0 10), .op (.poll 0 0), .op (.ins 0),
   .sys (.hw 5), .sys (.irq 5), .sys (.code .readInitial), .sys (.spawn 2 2 7), .sys (.call 2), .sys (.call 2), .sys (.call 2), .sys (.call 2), .sys (.spawn 3 1 7), .sys (.call 3), .sys (.call 3), .sys (.call 3), .sys (.call 3), .sys (.code .finish), .sys (.code .ret),
   .sys (.irq 3), .sys (.code .readInitial), .sys (.disp 3 false), .sys (.disp 3 false), .sys (.disp 3 false), .op (.create 1 20), .op (.poll 1 1), .op (.ins 1), .sys (.disp 3 false), .sys (.disp 3 false),
   .sys (.code .finish), .sys (.code .ret), .sys (.irq 2), .sys (.code .readInitial), .sys (.disp 2 false), .sys (.disp 2 false), .sys (.disp 2 false)] ++ List.replicate 40 (.clock false false false)

/-- what holds after `inversion` -/
def inverted (s : St) : Bool :=
  s.waits 1 && decide (s.tq.inst 1 + 20 ≤ s.tq.now) && decide (s.y.m.stack = [.body 2 (some 0), .body 1 none, .body 0 none]) && (next (demo 3 4) 6 2 s (.sys (.code .userCs))).isSome

theorem inversion_run : (match run (demo 3 4) 6 2 (demoStart 1 0) inversion with | some (_, s) => inverted s | none => false) = true := by decide +kernel

/-- **C83, violated without the condition**: a task of priority 3 (not more than that of the timer interrupt, chosen as RTIC does for hardware tasks of priority 4) awaits a delay that has expired 20 ticks ago, nothing blocks priority 3, and a task of priority 2 runs on. -/
theorem C83_priority_inversion_violated : ∃ (c : Cfg) (st s2 s3 : St) (as : List Act) (a : Act) (tr ev : List (Nat × Executor.Ev)) (i d cur : Nat) (ts : List Nat), WellFormed c ∧ Start c st ∧ Exec c st as tr s2 ∧ c.sys.tasks d = some ts ∧ c.own i ∈ ts ∧ c.sys.srp.prio d = 3 ∧
    c.sys.srp.prio c.th = Backends.monotonicPrio [4] c.sys.srp.bits ∧ c.sys.srp.prio d ≤ c.sys.srp.prio c.th ∧
    s2.waits i = true ∧ s2.tq.inst i + 20 ≤ s2.tq.now ∧ ¬ Srp.Blocked c.sys.srp 3 s2.y.m.stack ∧ Srp.top s2.y.m.stack = some cur ∧ c.sys.srp.prio cur = 2 ∧ a.own = true ∧ Step c s2 a ev s3 := by
  have h := inversion_run
  split at h
  · next tr s hr =>
    simp only [inverted, Bool.and_eq_true, decide_eq_true_eq, Option.isSome_iff_exists] at h
    obtain ⟨⟨⟨h1, h2⟩, h3⟩, ⟨ev, s3⟩, h4⟩ := h
    have hx := run_sound (demo_small 3 4) (demo_idle rfl) hr
    have hi := idle_exec (demo_idle rfl) hx
    refine ⟨demo 3 4, _, s, s3, _, _, tr, ev, 1, 3, 2, [1], demo_wf (by decide) (by decide) (by decide), demo_start rfl, hx, rfl, by decide, rfl, by decide, by decide, h1, h2, ?_, by rw [h3]; rfl, rfl, rfl, next_sound (demo_small 3 4) hi h4⟩
    rw [h3]
    rintro ⟨x, b, hs, hb, -⟩
    have : x ∈ [Srp.Rec.body 2 (some 0), .body 1 none, .body 0 none] := hs.subset List.mem_cons_self
    simp only [List.mem_cons, List.not_mem_nil, or_false] at this
    rcases this with rfl | rfl | rfl <;> exact hb
  · cases h

/-- Task 1 (priority 3) awaits a delay until time 20, the compare is armed for it. A hardware task of priority 2 runs when the time comes. -/
def lowTimer : List Act :=
  [.sys (.irq 3), .sys (.code .readInitial), .sys (.disp 3 false), .sys (.disp 3 false), .sys (.disp 3 false), .op (.create 1 20), .op (.poll 1 1), .op (.ins 1), .op (.pend 1), .sys (.disp 3 false), .sys (.disp 3 false), .sys (.code .finish), .sys (.code .ret),
   .enter, .sys (.code .readInitial), .hgo, .hgo, .hgo, .hgo, .arm 20, .hgo, .sys (.code .finish), .sys (.code .ret), .sys (.hw 5), .sys (.irq 5), .sys (.code .readInitial)] ++ List.replicate 19 (.clock false false false) ++ [.clock true false false] ++
    List.replicate 20 (.clock false false false)

def lowTimed (s : St) : Bool :=
  s.waits 1 && decide (s.tq.inst 1 + 20 ≤ s.tq.now) && decide (s.y.m.stack = [.body 5 (some 0), .body 0 none]) && decide (s.tq.pc 1 ≠ .p2) && (next (demo 1 2) 6 2 s (.sys (.code .userCs))).isSome

theorem lowTimer_run : (match run (demo 1 2) 6 2 (demoStart 3 1) lowTimer with | some (_, s) => lowTimed s | none => false) = true := by decide +kernel

theorem lowTimer_others (j : Nat) (hj : j ≠ 1) : ∀ a ∈ lowTimer, others j a = true := by
  intro a ha
  simp only [lowTimer, List.mem_append, List.mem_cons, List.not_mem_nil, or_false, List.mem_replicate] at ha
  simp only [or_assoc] at ha
  repeat' (rcases ha with rfl | ha)
  all_goals first | rfl | (simp [others, opOf]; omega) | skip
  rcases ha with ha | ha | ha
  · rw [ha.2]; rfl
  · rw [ha]; rfl
  · rw [ha.2]; rfl

/-- **C83, violated for tasks more urgent than the timer interrupt**: with a hardware task of priority 2, RTIC gives the timer interrupt priority 1; a software task of priority 3 awaits a delay that has expired 20 ticks ago, nothing blocks it, nobody is held up before pending the timer interrupt, and the hardware task runs on. -/
theorem C83_low_timer_violated : ∃ (c : Cfg) (st s2 s3 : St) (as : List Act) (a : Act) (tr ev : List (Nat × Executor.Ev)) (i d cur : Nat) (ts : List Nat), WellFormed c ∧ Start c st ∧ Exec c st as tr s2 ∧ c.sys.tasks d = some ts ∧ c.own i ∈ ts ∧ c.sys.srp.prio d = 3 ∧
    c.sys.tasks cur = none ∧ c.sys.srp.prio cur = 2 ∧ c.sys.srp.prio c.th = Backends.monotonicPrio [2] c.sys.srp.bits ∧ ¬ HeldUp c 3 s2 ∧
    s2.waits i = true ∧ s2.tq.inst i + 20 ≤ s2.tq.now ∧ ¬ Srp.Blocked c.sys.srp 3 s2.y.m.stack ∧ Srp.top s2.y.m.stack = some cur ∧ a.own = true ∧ Step c s2 a ev s3 := by
  have h := lowTimer_run
  split at h
  · next tr s hr =>
    simp only [lowTimed, Bool.and_eq_true, decide_eq_true_eq, Option.isSome_iff_exists] at h
    obtain ⟨⟨⟨⟨h1, h2⟩, h3⟩, h5⟩, ⟨ev, s3⟩, h4⟩ := h
    have hx := run_sound (demo_small 1 2) (demo_idle rfl) hr
    have hi := idle_exec (demo_idle rfl) hx
    refine ⟨demo 1 2, _, s, s3, _, _, tr, ev, 1, 3, 5, [1], demo_wf (by decide) (by decide) (by decide), demo_start rfl, hx, rfl, by decide, rfl, rfl, rfl, by decide, ?_, h1, h2, ?_, by rw [h3]; rfl, rfl, next_sound (demo_small 1 2) hi h4⟩
    · rintro ⟨j, hj, -⟩
      by_cases e : j = 1
      · subst e; exact h5 hj
      · rw [pc_exec hx (lowTimer_others j e)] at hj; cases hj
    · rw [h3]
      rintro ⟨x, b, hs, hb, -⟩
      have : x ∈ [Srp.Rec.body 5 (some 0), .body 0 none] := hs.subset List.mem_cons_self
      simp only [List.mem_cons, List.not_mem_nil, or_false] at this
      rcases this with rfl | rfl <;> exact hb
  · cases h

/-- Task 1 awaits a delay until time 20; the timer interrupt arms the compare for it; the processor idles; at time 20 the hardware raises the interrupt. -/
def expiry : List Act :=
  [.sys (.irq 3), .sys (.code .readInitial), .sys (.disp 3 false), .sys (.disp 3 false), .sys (.disp 3 false), .op (.create 1 20), .op (.poll 1 1), .op (.ins 1), .op (.pend 1), .sys (.disp 3 false), .sys (.disp 3 false), .sys (.code .finish), .sys (.code .ret),
   .enter, .sys (.code .readInitial), .hgo, .hgo, .hgo, .hgo, .arm 20, .hgo, .sys (.code .finish), .sys (.code .ret)] ++ List.replicate 19 (.clock false false false) ++ [.clock true false false]

/-- what holds after `expiry` -/
def expired (s : St) : Bool :=
  s.waits 1 && decide (s.tq.inst 1 ≤ s.tq.now) && decide (s.tq.pc 1 ≠ .p2) && decide (s.y.m.stack = [.body 0 none]) &&
    match next (demo 3 4) 6 2 s .enter with
    | some (_, s') => s'.waits 1 && decide (s'.tq.inst 1 ≤ s'.tq.now) && decide (s'.y.m.stack = [.enter 4, .body 0 none]) && (next (demo 3 4) 6 2 s' (.sys (.code .readInitial))).isSome
    | none => false

theorem expiry_run : (match run (demo 3 4) 6 2 (demoStart 3 1) expiry with | some (_, s) => expired s | none => false) = true := by decide +kernel

theorem expiry_others (j : Nat) (hj : j ≠ 1) : ∀ a ∈ expiry, others j a = true := by
  intro a ha
  simp only [expiry, List.mem_append, List.mem_cons, List.not_mem_nil, or_false, List.mem_replicate] at ha
  simp only [or_assoc] at ha
  repeat' (rcases ha with rfl | ha)
  all_goals first | rfl | (simp [others, opOf]; omega) | skip
  rcases ha with ha | ha
  · rw [ha.2]; rfl
  · rw [ha]; rfl

/-- Non-vacuity of `C83_expired_runs_first_partial`: the delay of task 1 expires while the processor idles, the timer interrupt is taken, the task still waits, and the handler makes the next step. -/
example : ∃ st s2 s3 as0 as tr0, Start (demo 3 4) st ∧ Exec (demo 3 4) st as0 tr0 s2 ∧ (demo 3 4).sys.tasks 3 = some [1] ∧ (demo 3 4).own 1 ∈ [1] ∧ Srp.top s2.y.m.stack = some 0 ∧
    While (demo 3 4) (fun s => s.waits 1 = true ∧ Overdue (demo 3 4) 1 s ∧ ¬ HeldUp (demo 3 4) ((demo 3 4).sys.srp.prio 3) s) s2 as s3 ∧ as ≠ [] ∧ ∃ a ev s4, Step (demo 3 4) s3 a ev s4 ∧ a.own = true ∧ Srp.top s3.y.m.stack = some 4 := by
  have h := expiry_run
  split at h
  · next tr s hr =>
    unfold expired at h
    rw [Bool.and_eq_true] at h
    obtain ⟨h, h5⟩ := h
    split at h5
    · next ev1 s1 hn1 =>
      simp only [Bool.and_eq_true, decide_eq_true_eq, Option.isSome_iff_exists] at h h5
      obtain ⟨⟨⟨h1, h2⟩, h3⟩, h4⟩ := h
      obtain ⟨⟨⟨g1, g2⟩, g3⟩, ⟨ev2, s2⟩, hn2⟩ := h5
      have hx := run_sound (demo_small 3 4) (demo_idle rfl) hr
      have hi := idle_exec (demo_idle rfl) hx
      have st1 := next_sound (demo_small 3 4) hi hn1
      have st2 := next_sound (demo_small 3 4) (idle_step hi st1) hn2
      have hp1 : s.tq.pc 1 ≠ .p2 := by simpa using h3
      have hheld : ¬ HeldUp (demo 3 4) ((demo 3 4).sys.srp.prio 3) s := by
        rintro ⟨j, hj, -⟩
        by_cases e : j = 1
        · subst e; exact hp1 hj
        · rw [pc_exec hx (expiry_others j e)] at hj; cases hj
      have hheld' : ¬ HeldUp (demo 3 4) ((demo 3 4).sys.srp.prio 3) s1 := by
        rintro ⟨j, hj, hq⟩
        rw [pc_step st1 rfl] at hj
        exact hheld ⟨j, hj, hq⟩
      exact ⟨_, s, s1, _, [.enter], tr, demo_start rfl, hx, rfl, by decide, by rw [h4]; rfl, .snoc (.nil ⟨h1, h2, hheld⟩) st1 ⟨g1, g2, hheld'⟩, by simp, _, ev2, s2, st2, rfl, by rw [g3]; rfl⟩
    · cases h5
  · cases h

end Verif.Timed
