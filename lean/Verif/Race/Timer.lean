import Verif.Race.Own
import Verif.TimerQueue.Inv

/-!
# The memory accesses of the timer queue

As in `Verif.Race.Channel`: the non-atomic memory accesses of every step of the machine of `Verif.TimerQueue`. The pointers of
the list, `was_popped` and `marker` are atomics. The interrupt handler is thread 0, delay `i` is used by thread `i + 1`; these
threads may run on different cores. `sync i` stands for any critical section that thread `i + 1` passes for other reasons
(it gives the thread a view of everything that was done in critical sections before).
-/

namespace Verif.Race.Timer

open Verif.TimerQueue Verif.Race

/-- The lock of `critical_section`. -/
def lock : Nat := 0

/-- The non-atomic memory: `Delay::link_ptr` of each delay, `timer_queue.rs:210`: the waker, the instant, and the variable of the `Option`. -/
inductive Loc where
  | link (i : Nat)
deriving DecidableEq, Repr

inductive MAct where
  | act (a : Act)
  | sync (i : Nat)
deriving DecidableEq, Repr

/-- The links in the list. -/
def listed (s : St) : List Loc := s.q.map (fun e => .link e.id)

/-- The memory accesses of one step. -/
def emit (s : St) : MAct → List (MEv Loc)
  | .sync i => [csEv lock (i + 1) [] []]
  -- `timer_queue.rs:197-202`
  | .act (.create i _) => [naEv (i + 1) [] [.link i]]
  -- `timer_queue.rs:228`: `is_none`
  | .act (.poll i _) => [naEv (i + 1) [.link i] []]
  -- `timer_queue.rs:229-233`: the link is written; `linked_list.rs:101-164`: the links in the list are compared with it in a critical section
  | .act (.ins i) => [naEv (i + 1) [] [.link i], csEv lock (i + 1) (.link i :: listed s) []]
  -- `timer_queue.rs:256-261`: the option is read; if there is no link or it was popped, `drop` is done and the memory of the delay ends
  | .act (.drop i) =>
    match s.lk i with
    | some false => [naEv (i + 1) [.link i] []]
    | _ => [naEv (i + 1) [.link i] [], naEv (i + 1) [] [.link i]]
  -- `timer_queue.rs:262`, `linked_list.rs:51-92`; then the memory of the delay ends
  | .act (.del i) => [csEv lock (i + 1) (listed s) [], naEv (i + 1) [] [.link i]]
  -- `linked_list.rs:26-46`, `timer_queue.rs:106-113`: instant and waker of the head are read in a critical section
  | .act .hgo =>
    match s.h, s.q with
    | .h1, e :: _ => [csEv lock 0 [.link e.id] []]
    | .h1, [] => [csEv lock 0 [] []]
    | _, _ => []
  | .act _ => []

/-- A pop makes the popped link one that its thread has not synchronised with. -/
def synAfter (s : St) (syn : Nat → Bool) : Act → Nat → Bool
  | .hgo =>
    match s.h, s.q with
    | .h1, e :: _ => set syn e.id false
    | _, _ => syn
  | _ => syn

/-- The machine; the second component records which threads have been in a critical section since the link of their delay was popped. -/
def stepM (b : Cfg) (s : St) (syn : Nat → Bool) : MAct → Option (St × (Nat → Bool))
  | .sync i => some (s, set syn i true)
  | .act a =>
    match step b s a with
    | none => none
    | some (s1, _) => some (s1, synAfter s syn a)

/-- The memory events of an execution. -/
def trace (b : Cfg) (s : St) (syn : Nat → Bool) : List MAct → List (MEv Loc)
  | [] => []
  | a :: as =>
    match stepM b s syn a with
    | none => []
    | some (s1, syn1) => emit s a ++ trace b s1 syn1 as

/-- All memory events of an execution from the start. -/
def run (b : Cfg) (as : List MAct) : List (MEv Loc) := trace b (init b.noop) (fun _ => false) as

/-- This action is not a drop of a delay whose link was popped without its thread having passed a critical section since. -/
def okAct (s : St) (syn : Nat → Bool) : MAct → Bool
  | .act (.drop i) => s.lk i != some true || syn i
  | _ => true

/-- Whenever a delay is dropped after its link was popped, its thread has passed a critical section in between. -/
def synced (b : Cfg) (s : St) (syn : Nat → Bool) : List MAct → Bool
  | [] => true
  | a :: as =>
    okAct s syn a &&
    match stepM b s syn a with
    | none => true
    | some (s1, syn1) => synced b s1 syn1 as

/-! ## Invariant -/

/-- Is the link shared with the handler? -/
def shared (s : St) (syn : Nat → Bool) (i : Nat) : Bool :=
  match s.pc i, s.lk i with
  | .none, _ => false
  | _, none => false
  | _, some false => true
  | _, some true => !syn i

def mode (s : St) (syn : Nat → Bool) : Loc → Mode
  | .link i => if shared s syn i then .looked (i + 1) else .own (i + 1)

theorem mem_listed {b : Cfg} {s : St} {syn : Nat → Bool} (h : Inv b s) {l : Loc} (hl : l ∈ listed s) :
    ∃ i, l = .link i ∧ shared s syn i = true := by
  obtain ⟨e, he, rfl⟩ := List.mem_map.1 hl
  obtain ⟨h1, h2⟩ := (h.mem e.id).1 ⟨e, he, rfl⟩
  refine ⟨e.id, rfl, ?_⟩
  rcases h1 with h1 | h1 | h1 <;> simp [shared, h1, h2]

theorem mode_congr {s s' : St} {syn syn' : Nat → Bool} (h : ∀ j, shared s' syn' j = shared s syn j) : mode s' syn' = mode s syn := by
  funext l; cases l with
  | link j => simp [mode, h]

/-- an access of the owner outside of critical sections -/
theorem disc_mine {D : Loc → Mode} {tr : List (MEv Loc)} {i : Nat} {rd wr : List Loc} (hd : Disc tr lock D)
    (hw : ∀ l ∈ rd ++ wr, l = .link i) (ho : D (.link i) = .own (i + 1) ∨ (D (.link i) = .looked (i + 1) ∧ wr = [])) :
    Disc (tr ++ [naEv (i + 1) rd wr]) lock D := by
  refine disc_na hd (fun l => .inl ⟨rfl, ?_⟩)
  by_cases h : l = .link i
  · subst h
    rcases ho with ho | ⟨ho, rfl⟩
    · exact .inl ho
    · exact .inr ⟨by simp, .inr ho⟩
  · exact .inr ⟨fun h1 => h (hw l (by simp [h1])), .inl (fun h1 => h (hw l (by simp [h1])))⟩

theorem mode_cases (s : St) (syn : Nat → Bool) (i : Nat) :
    mode s syn (.link i) = .own (i + 1) ∨ mode s syn (.link i) = .looked (i + 1) := by
  simp only [mode]; cases shared s syn i <;> simp

/-- a critical section of thread `i + 1` that reads listed links -/
theorem disc_lock {b : Cfg} {s s' : St} {syn syn' : Nat → Bool} {tr : List (MEv Loc)} {i : Nat} {rd : List Loc} (h : Inv b s)
    (hd : Disc tr lock (mode s syn)) (hr : ∀ l ∈ rd, l = .link i ∨ l ∈ listed s)
    (hne : ∀ j, j ≠ i → shared s' syn' j = shared s syn j) :
    Disc (tr ++ [csEv lock (i + 1) rd []]) lock (mode s' syn') := by
  refine disc_cs2 hd (fun l => ?_)
  cases l with
  | link j =>
    by_cases hj : j = i
    · subst hj
      refine .inl ⟨?_, ?_⟩
      · rcases mode_cases s syn j with h1 | h1 <;> simp [h1, Mode.near]
      · rcases mode_cases s' syn' j with h1 | h1 <;> simp [h1, Mode.near]
    · refine .inr ⟨by simp [mode, hne j hj], by simp, fun h3 => ?_⟩
      rcases hr _ h3 with h4 | h4
      · cases h4; exact absurd rfl hj
      · obtain ⟨k, h5, h6⟩ := mem_listed (syn := syn) h h4
        cases h5
        exact ⟨j + 1, .inr (by simp [mode, h6])⟩

theorem disc_step {b : Cfg} {s s' : St} {syn syn' : Nat → Bool} {a : MAct} {tr : List (MEv Loc)} (h : Inv b s)
    (hd : Disc tr lock (mode s syn)) (hg : okAct s syn a = true)
    (hs : stepM b s syn a = some (s', syn')) : Disc (tr ++ emit s a) lock (mode s' syn') := by
  cases a with
  | sync i =>
    cases hs
    refine disc_lock h hd (by simp) (fun j hj => ?_)
    simp [shared, Verif.TimerQueue.set, hj]
  | act a =>
    simp only [stepM] at hs
    cases hst : step b s a with
    | none => rw [hst] at hs; cases hs
    | some r =>
      obtain ⟨s1, ev⟩ := r
      rw [hst] at hs
      simp only at hs
      have ht := tr_of_step hst
      have same : (∀ j, shared s1 syn j = shared s syn j) → Disc tr lock (mode s1 syn) := fun h1 => by
        rw [mode_congr h1]; exact hd
      cases ht with
      | tick => cases hs; simpa [emit, synAfter] using same (fun j => rfl)
      | create i t hp =>
        simp only [synAfter] at hs
        cases hs
        have hl : shared s syn i = false := by simp [shared, hp]
        have hm := mode_congr (s := s) (s' := { s with pc := set s.pc i .alive, inst := set s.inst i t, lk := set s.lk i none })
          (syn := syn) (syn' := syn) (fun j => by
            by_cases hj : j = i
            · subst hj; simp [shared, Verif.TimerQueue.set, hp]
            · simp [shared, Verif.TimerQueue.set, hj])
        rw [hm]
        exact disc_mine hd (by simp) (.inl (by simp [mode, hl]))
      | pollReady i wk hp hn hr =>
        simp only [synAfter] at hs
        cases hs
        exact disc_mine hd (by simp) ((mode_cases s syn i).imp_right (fun h1 => ⟨h1, rfl⟩))
      | pollWait i wk x hp hn hr hl =>
        simp only [synAfter] at hs
        cases hs
        exact disc_mine hd (by simp) ((mode_cases s syn i).imp_right (fun h1 => ⟨h1, rfl⟩))
      | pollNew i wk hp hn hr hl =>
        simp only [synAfter] at hs
        cases hs
        have hm := mode_congr (s := s) (s' := { s with pc := set s.pc i (.p1 wk) }) (syn := syn) (syn' := syn) (fun j => by
            by_cases hj : j = i
            · subst hj; simp [shared, Verif.TimerQueue.set, hp, hl]
            · simp [shared, Verif.TimerQueue.set, hj])
        rw [hm]
        exact disc_mine hd (by simp) ((mode_cases s syn i).imp_right (fun h1 => ⟨h1, rfl⟩))
      | ins i wk hp hn hq =>
        simp only [synAfter] at hs
        cases hs
        have hl : shared s syn i = false := by simp [shared, hp, h.p1 i wk hp]
        have h1 := disc_mine (i := i) (rd := []) (wr := [.link i]) hd (by simp) (.inl (by simp [mode, hl]))
        simp only [emit]
        rw [show ∀ (a b : MEv Loc), tr ++ [a, b] = tr ++ [a] ++ [b] by simp]
        refine disc_lock h h1 (by simp) (fun j hj => ?_)
        simp [shared, Verif.TimerQueue.set, hj]
      | pend i hp =>
        simp only [synAfter] at hs
        cases hs
        simp only [emit, List.append_nil]
        refine same (fun j => ?_)
        by_cases hj : j = i
        · subst hj
          simp only [shared, Verif.TimerQueue.set, hp, if_true]
          rcases s.lk j with _ | _ | _ <;> rfl
        · simp [shared, Verif.TimerQueue.set, hj]
      | dropQ i hp hl =>
        simp only [synAfter] at hs
        cases hs
        have hm := mode_congr (s := s) (s' := { s with pc := set s.pc i .d1 }) (syn := syn) (syn' := syn) (fun j => by
            by_cases hj : j = i
            · subst hj; simp [shared, Verif.TimerQueue.set, hp, hl]
            · simp [shared, Verif.TimerQueue.set, hj])
        rw [hm]
        simp only [emit, hl]
        exact disc_mine hd (by simp) ((mode_cases s syn i).imp_right (fun h1 => ⟨h1, rfl⟩))
      | dropN i hp hl =>
        simp only [synAfter] at hs
        cases hs
        have hsh : shared s syn i = false := by
          cases hk : s.lk i with
          | none => simp [shared, hp, hk]
          | some x => cases x with
            | false => exact absurd hk hl
            | true => simp [okAct, hk] at hg; simp [shared, hp, hk, hg]
        have hm := mode_congr (s := s) (s' := { s with pc := set s.pc i .none }) (syn := syn) (syn' := syn) (fun j => by
            by_cases hj : j = i
            · subst hj; rw [hsh]; simp [shared, Verif.TimerQueue.set]
            · simp [shared, Verif.TimerQueue.set, hj])
        rw [hm]
        have he : emit s (.act (.drop i)) = [naEv (i + 1) [.link i] [], naEv (i + 1) [] [.link i]] := by
          simp only [emit]
        rw [he]
        have h1 := disc_mine (i := i) (rd := [.link i]) (wr := []) hd (by simp) (.inl (by simp [mode, hsh]))
        have h2 := disc_mine (i := i) (rd := []) (wr := [.link i]) h1 (by simp) (.inl (by simp [mode, hsh]))
        simpa using h2
      | del i hp =>
        simp only [synAfter] at hs
        cases hs
        simp only [emit]
        rw [show ∀ (a b : MEv Loc), tr ++ [a, b] = tr ++ [a] ++ [b] by simp]
        have h1 := disc_lock (s' := { s with q := s.q.filter (fun e => e.id ≠ i), pc := set s.pc i .none }) (syn' := syn) (rd := listed s)
          (i := i) h hd (fun l hl => .inr hl) (fun j hj => by simp [shared, Verif.TimerQueue.set, hj])
        exact disc_mine h1 (by simp) (.inl (by simp [mode, shared, Verif.TimerQueue.set]))
      | start hh hi => cases hs; simpa [emit, synAfter] using same (fun j => rfl)
      | clear hh => simp only [synAfter, hh] at hs; cases hs; simpa [emit, hh] using same (fun j => rfl)
      | onIrq hh => simp only [synAfter, hh] at hs; cases hs; simpa [emit, hh] using same (fun j => rfl)
      | popEmpty hh hq =>
        simp only [synAfter, hh, hq] at hs
        cases hs
        simp only [emit, hh, hq]
        exact disc_cs2 hd (fun l => .inr ⟨rfl, by simp, by simp⟩)
      | popYes e q hh hq hr =>
        simp only [synAfter, hh, hq] at hs
        cases hs
        simp only [emit, hh, hq]
        obtain ⟨h1, h2⟩ := (h.mem e.id).1 ⟨e, by simp [hq], rfl⟩
        have hsh : shared s syn e.id = true := by rcases h1 with h1 | h1 | h1 <;> simp [shared, h1, h2]
        rw [mode_congr (s := s) (syn := syn)]
        · exact disc_cs2 hd (fun l => .inr ⟨rfl, by simp, fun h3 => ⟨e.id + 1, .inr (by simp at h3; simp [h3, mode, hsh])⟩⟩)
        · intro j
          by_cases hj : j = e.id
          · subst hj; rw [hsh]; rcases h1 with h1 | h1 | h1 <;> simp [shared, Verif.TimerQueue.set, h1]
          · simp [shared, Verif.TimerQueue.set, hj]
      | popNo e q hh hq hr =>
        simp only [synAfter, hh, hq] at hs
        cases hs
        simp only [emit, hh, hq]
        obtain ⟨h1, h2⟩ := (h.mem e.id).1 ⟨e, by simp [hq], rfl⟩
        have hsh : shared s syn e.id = true := by rcases h1 with h1 | h1 | h1 <;> simp [shared, h1, h2]
        rw [mode_congr (s := s) (syn := syn)]
        · exact disc_cs2 hd (fun l => .inr ⟨rfl, by simp, fun h3 => ⟨e.id + 1, .inr (by simp at h3; simp [h3, mode, hsh])⟩⟩)
        · intro j
          by_cases hj : j = e.id
          · subst hj; rw [hsh]; rcases h1 with h1 | h1 | h1 <;> simp [shared, Verif.TimerQueue.set, h1]
          · simp [shared, Verif.TimerQueue.set, hj]
      | wake wk hh => simp only [synAfter, hh] at hs; cases hs; simpa [emit, hh] using same (fun j => rfl)
      | enable t hh => simp only [synAfter, hh] at hs; cases hs; simpa [emit, hh] using same (fun j => rfl)
      | again t hh hr => simp only [synAfter, hh] at hs; cases hs; simpa [emit, hh] using same (fun j => rfl)
      | finish t hh hr => simp only [synAfter, hh] at hs; cases hs; simpa [emit, hh] using same (fun j => rfl)
      | disable hh => simp only [synAfter, hh] at hs; cases hs; simpa [emit, hh] using same (fun j => rfl)
      | arm c t hh hc => cases hs; simpa [emit, hh, synAfter] using same (fun j => rfl)

theorem inv_stepM {b : Cfg} (hw : 0 < b.w) {s s' : St} {syn syn' : Nat → Bool} {a : MAct} (h : Inv b s)
    (hs : stepM b s syn a = some (s', syn')) : Inv b s' := by
  cases a with
  | sync i => cases hs; exact h
  | act a =>
    simp only [stepM] at hs
    cases hst : step b s a with
    | none => rw [hst] at hs; cases hs
    | some r =>
      obtain ⟨s1, ev⟩ := r
      rw [hst] at hs
      have := inv_step hw h hst
      cases hs; exact this

theorem disc_trace {b : Cfg} (hw : 0 < b.w) : ∀ (as : List MAct) (s : St) (syn : Nat → Bool) (tr : List (MEv Loc)), Inv b s →
    Disc tr lock (mode s syn) → synced b s syn as = true → RaceFree (tr ++ trace b s syn as)
  | [], s, syn, tr, _, hd, _ => by simpa [trace] using hd.rf
  | a :: as, s, syn, tr, h, hd, hy => by
    simp only [trace]
    simp only [synced, Bool.and_eq_true] at hy
    split
    · simpa using hd.rf
    · rename_i s1 syn1 hs
      rw [hs] at hy
      rw [← List.append_assoc]
      exact disc_trace hw as s1 syn1 _ (inv_stepM hw h hs) (disc_step h hd hy.1 hs) hy.2

/-- C112. The timer queue has no data race, on any number of cores, if every delay whose link was popped by the interrupt
handler is dropped only after its thread has synchronised with the handler. -/
theorem C112_timer_race_free_partial {b : Cfg} (hw : 0 < b.w) {as : List MAct}
    (hy : synced b (init b.noop) (fun _ => false) as = true) : RaceFree (run b as) := by
  simpa [run] using disc_trace hw as (init b.noop) (fun _ => false) [] (inv_init b) (disc_nil _ _) hy

/-- The executions of the program in which `Delay::drop` passes a critical section before it looks at `was_popped`. -/
def fixed : List MAct → List MAct
  | [] => []
  | .act (.drop i) :: as => .sync i :: .act (.drop i) :: fixed as
  | a :: as => a :: fixed as

theorem synced_fixed {b : Cfg} : ∀ (as : List MAct) (s : St) (syn : Nat → Bool), synced b s syn (fixed as) = true
  | [], _, _ => by simp [fixed, synced]
  | a :: as, s, syn => by
    by_cases hd : ∃ i, a = .act (.drop i)
    · obtain ⟨i, rfl⟩ := hd
      simp only [fixed, synced, stepM, okAct, Bool.true_and, Bool.and_eq_true]
      refine ⟨by simp [Verif.TimerQueue.set], ?_⟩
      cases step b s (.drop i) with
      | none => rfl
      | some r => exact synced_fixed as _ _
    · have hf : fixed (a :: as) = a :: fixed as := by
        cases a with
        | sync i => rfl
        | act a => cases a <;> first | rfl | exact absurd ⟨_, rfl⟩ hd
      have ho : okAct s syn a = true := by
        cases a with
        | sync i => rfl
        | act a => cases a <;> first | rfl | exact absurd ⟨_, rfl⟩ hd
      rw [hf]
      simp only [synced, ho, Bool.true_and]
      split
      · rfl
      · exact synced_fixed as _ _

/-- C112. With a critical section in `Delay::drop` before the test of `was_popped` there is no data race. -/
theorem C112_fixed_race_free_partial {b : Cfg} (hw : 0 < b.w) (as : List MAct) : RaceFree (run b (fixed as)) :=
  C112_timer_race_free_partial hw (synced_fixed as _ _)

/-- A delay of two ticks is inserted, the handler pops it, and the delay is dropped (its future was cancelled). -/
def popDrop : List MAct :=
  [.act (.create 0 2), .act (.poll 0 7), .act (.ins 0), .act (.pend 0), .act (.tick false false false), .act (.tick false false false),
   .act .start, .act .hgo, .act .hgo, .act .hgo, .act (.drop 0)]

def cfg8 : Cfg := { w := 8, noop := true, sl := 0 }

theorem run_popDrop : run cfg8 popDrop =
    [naEv 1 [] [.link 0], naEv 1 [.link 0] [], naEv 1 [] [.link 0], csEv lock 1 [.link 0] [], csEv lock 0 [.link 0] [],
     naEv 1 [.link 0] [], naEv 1 [] [.link 0]] := by decide +kernel

/-- C112, what is false: `Delay::drop` tests `was_popped` (relaxed) without a critical section and returns, and the memory of
the link ends while the handler may still be reading it on another core. -/
theorem C112_drop_violated : ¬ ∀ as : List MAct, RaceFree (run cfg8 as) := by
  intro h
  have h1 := h popDrop
  rw [run_popDrop] at h1
  have h2 := h1 4 6 _ _ (by omega) rfl rfl ⟨.link 0, .inr ⟨by simp [csEv], by simp [naEv]⟩⟩
  have key : ∀ i j : Nat, HB [naEv 1 [] [Loc.link 0], naEv 1 [.link 0] [], naEv 1 [] [.link 0], csEv lock 1 [.link 0] [], csEv lock 0 [.link 0] [],
     naEv 1 [.link 0] [], naEv 1 [] [.link 0]] i j → i = 4 → False := by
    intro i j hb
    induction hb with
    | @po i j a b lt ha hb same =>
      rintro rfl
      cases ha
      match j, lt, hb with
      | 5, _, hb => cases hb; simp [csEv, naEv] at same
      | 6, _, hb => cases hb; simp [csEv, naEv] at same
      | (n + 7), _, hb => simp at hb
    | @sw i j k a b lt ha hb hr hk =>
      rintro rfl
      match j, lt, hb with
      | 5, _, hb => cases hb; simp [naEv] at hk
      | 6, _, hb => cases hb; simp [naEv] at hk
      | (n + 7), _, hb => simp at hb
    | trans _ _ ih _ => exact ih
  exact key 4 6 h2 rfl

/-- the hypothesis of `C112_timer_race_free_partial` holds when the thread passes a critical section after the pop -/
example : synced cfg8 (init true) (fun _ => false) (popDrop.take 10 ++ [.sync 0, .act (.drop 0)]) = true := by decide +kernel

example : synced cfg8 (init true) (fun _ => false) popDrop = false := by decide +kernel

/-- A delay that is dropped before its time. -/
def early : List MAct := [.act (.create 0 2), .act (.poll 0 7), .act (.ins 0), .act (.pend 0), .act (.drop 0), .act (.del 0)]

example : synced cfg8 (init true) (fun _ => false) early = true ∧ run cfg8 early =
    [naEv 1 [] [.link 0], naEv 1 [.link 0] [], naEv 1 [] [.link 0], csEv lock 1 [.link 0] [], naEv 1 [.link 0] [],
     csEv lock 1 [.link 0] [], naEv 1 [] [.link 0]] := by decide +kernel

end Verif.Race.Timer
