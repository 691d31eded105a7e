import Verif.Executor.Props

/-!
# Calls never wait; tasks of one priority share the dispatcher fairly (C76, C77)
-/

namespace Verif.Executor

/-! ## C76: `spawn` and `wake` are wait-free -/

/-- The action begins a call (of `spawn` or of a waker) by thread `i`. -/
def beginsCall (i : Nat) : Act → Bool
  | .callSpawn j _ _ | .callWake j _ => j == i
  | _ => false

/-- accesses of thread `i` in a schedule -/
def thrCount (i : Nat) : List Act → Nat
  | [] => 0
  | .thr j :: as => (if j = i then 1 else 0) + thrCount i as
  | _ :: as => thrCount i as

/-- accesses a call has before it at most -/
def callRank : Tpc → Nat
  | .idle => 0
  | .s1 _ _ => 4
  | .s2 _ _ => 3
  | .s3 _ => 2
  | .w1 _ => 2
  | .p _ => 1

theorem callRank_step {c : Cfg} {s s1 : St} {a : Act} {e : List Ev} {i : Nat} (hs : step c s a = some (s1, e)) (hb : beginsCall i a = false) :
    thrCount i [a] + callRank (s1.pc i) ≤ callRank (s.pc i) := by
  unfold step at hs
  split at hs
  · cases hs
  · cases a with
    | callSpawn j t a =>
      simp only at hs
      split at hs
      · cases hs
        have : i ≠ j := by rintro rfl; simp [beginsCall] at hb
        simp [upd_apply, this, thrCount]
      · cases hs
    | callWake j t =>
      simp only at hs
      split at hs
      · cases hs
        have : i ≠ j := by rintro rfl; simp [beginsCall] at hb
        simp [upd_apply, this, thrCount]
      · cases hs
    | thr j =>
      simp only [stepThr] at hs
      by_cases hij : j = i
      · subst hij
        cases hp : s.pc j <;> simp only [hp] at hs
        · cases hs
        · split at hs <;> cases hs <;> simp [upd_apply, thrCount, callRank]
        all_goals (cases hs; simp [upd_apply, thrCount, callRank])
      · have hij' : i ≠ j := fun h => hij h.symm
        cases hp : s.pc j <;> simp only [hp] at hs
        · cases hs
        · split at hs <;> cases hs <;> simp [upd_apply, thrCount, hij, hij']
        all_goals (cases hs; simp [upd_apply, thrCount, hij, hij'])
    | disp r =>
      have htr := tr_of_step (c := c) (s := s) (a := .disp r) (s1 := s1) (e := e) (by unfold step; rw [if_neg ‹_›]; exact hs)
      simp only [Act.isDisp] at htr
      cases htr <;> simp [thrCount]

theorem thrCount_cons (i : Nat) (a : Act) (as : List Act) : thrCount i (a :: as) = thrCount i [a] + thrCount i as := by
  cases a <;> simp [thrCount]

theorem callRank_exec {c : Cfg} {i : Nat} : ∀ {acts : List Act} {s s1 : St} {e : List Ev}, exec c s acts = some (s1, e) →
    (∀ a ∈ acts, beginsCall i a = false) → thrCount i acts + callRank (s1.pc i) ≤ callRank (s.pc i) := by
  intro acts
  induction acts with
  | nil => intro s s1 e hx _; simp only [exec, Option.some.injEq, Prod.mk.injEq] at hx; obtain ⟨rfl, rfl⟩ := hx; simp [thrCount]
  | cons a as ih =>
    intro s s1 e hx hb
    obtain ⟨s2, e1, e2, h1, h2, rfl⟩ := exec_cons hx
    have := callRank_step h1 (hb a (by simp))
    have := ih h2 fun b hb' => hb b (by simp [hb'])
    rw [thrCount_cons]
    omega

/-- **C76** A call of `spawn` by thread `i` (the step from `s` to `s1`) is over after at most four accesses of its own, whatever all the others do meanwhile, as long as the thread does not begin another call. -/
theorem C76_spawn_bounded {c : Cfg} {acts : List Act} {s s1 s2 : St} {e e2 : List Ev} {i t a : Nat} (hc : step c s (.callSpawn i t a) = some (s1, e))
    (hx : exec c s1 acts = some (s2, e2)) (hb : ∀ x ∈ acts, beginsCall i x = false) :
    thrCount i acts ≤ 4 ∧ (thrCount i acts = 4 → s2.pc i = .idle) := by
  have h1 : callRank (s1.pc i) = 4 := by
    unfold step at hc
    split at hc
    · cases hc
    · simp only at hc
      split at hc
      · cases hc; simp [upd_apply, callRank]
      · cases hc
  have := callRank_exec hx hb
  refine ⟨by omega, fun h4 => ?_⟩
  have : callRank (s2.pc i) = 0 := by omega
  cases hp : s2.pc i <;> simp [hp, callRank] at this ⊢

/-- **C76** A call of a waker is over after at most two accesses of its own. -/
theorem C76_wake_bounded {c : Cfg} {acts : List Act} {s s1 s2 : St} {e e2 : List Ev} {i t : Nat} (hc : step c s (.callWake i t) = some (s1, e))
    (hx : exec c s1 acts = some (s2, e2)) (hb : ∀ x ∈ acts, beginsCall i x = false) :
    thrCount i acts ≤ 2 ∧ (thrCount i acts = 2 → s2.pc i = .idle) := by
  have h1 : callRank (s1.pc i) = 2 := by
    unfold step at hc
    split at hc
    · cases hc
    · simp only at hc
      split at hc
      · cases hc; simp [upd_apply, callRank]
      · cases hc
  have := callRank_exec hx hb
  refine ⟨by omega, fun h4 => ?_⟩
  have : callRank (s2.pc i) = 0 := by omega
  cases hp : s2.pc i <;> simp [hp, callRank] at this ⊢

/-- **C76** A call is never blocked: in every state in which it is not over (and no undefined behaviour has stopped the program) its next access is possible. -/
theorem C76_never_stuck {c : Cfg} {s : St} {i : Nat} (hu : s.ub = false) (hp : s.pc i ≠ .idle) : ∃ s1 e, step c s (.thr i) = some (s1, e) := by
  unfold step
  rw [if_neg (by simp [hu])]
  simp only [stepThr]
  cases h : s.pc i with
  | idle => exact absurd h hp
  | s1 t a => simp only; split <;> exact ⟨_, _, rfl⟩
  | _ => exact ⟨_, _, rfl⟩

-- a spawn that is accepted, with the dispatcher and another spawner in between; the second spawn is over after one access
example : (exec demoC init [.callSpawn 0 1 7, .thr 0, .callSpawn 5 1 8, .thr 5, .thr 0, .thr 0, .thr 0]).map (fun x => (x.2, x.1.pc 0, x.1.pc 5)) =
    some ([.ok 1 7, .err 1 8], .idle, .idle) := rfl

/-! ## C77: tasks of one priority -/

/-- occurrences of `t` in the list in front of the first `u` -/
def cb (t u : Nat) : List Nat → Nat
  | [] => 0
  | x :: l => if x = u then 0 else (if x = t then 1 else 0) + cb t u l

/-- how often `t` can still be polled before a waiting task `u` is polled -/
def before (c : Cfg) (t u : Nat) (s : St) : Nat :=
  match s.d with
  | .idle => cb t u c.ts
  | .run rest | .body _ rest | .rel _ rest => cb t u rest + (if u ∈ rest then 0 else cb t u c.ts)
  | .pend t' rest | .poll t' rest => cb t u (t' :: rest) + (if t' = u ∨ u ∈ rest then 0 else cb t u c.ts)

/-- the dispatcher goes through its list of tasks in order -/
def Cursor (c : Cfg) (s : St) : Prop :=
  match s.d with
  | .idle => True
  | .run rest => rest <:+ c.ts
  | .pend t rest | .poll t rest | .body t rest | .rel t rest => (t :: rest) <:+ c.ts

theorem cursor_step {c : Cfg} (s : St) (_h : List Ev) (a : Act) (s1 : St) (e : List Ev) (hi : Cursor c s)
    (hs : step c s a = some (s1, e)) : Cursor c s1 := by
  have htr := tr_of_step hs
  generalize a.isDisp = fl at htr
  have hc : ∀ {t : Nat} {rest : List Nat}, (t :: rest) <:+ c.ts → rest <:+ c.ts := fun h => (List.suffix_cons _ _).trans h
  unfold Cursor at *
  cases htr <;> simp_all <;> first | exact hc hi | skip

theorem cb_le_count (t u : Nat) : ∀ l : List Nat, cb t u l ≤ l.count t := by
  intro l
  induction l with
  | nil => simp [cb]
  | cons x l ih => simp only [cb, List.count_cons, beq_iff_eq]; split <;> (try split) <;> omega

theorem cb_append {t u : Nat} : ∀ {p : List Nat} (l : List Nat), u ∈ p → cb t u (p ++ l) = cb t u p := by
  intro p
  induction p with
  | nil => intro l h; cases h
  | cons x p ih =>
    intro l h
    simp only [cb, List.cons_append]
    split
    · rfl
    · rename_i hx
      rw [ih l ((List.mem_cons.mp h).resolve_left fun h => hx h.symm)]

theorem cb_round {c : Cfg} {t u : Nat} (hn : c.ts.Nodup) (hu : u ∈ c.ts) {l : List Nat} (h : l <:+ c.ts) :
    cb t u l + (if u ∈ l then 0 else cb t u c.ts) ≤ 1 := by
  have hc : c.ts.count t ≤ 1 := List.nodup_iff_count.mp hn t
  obtain ⟨p, hp⟩ := h
  have hl : (p ++ l).count t ≤ 1 := by rw [hp]; exact hc
  rw [List.count_append] at hl
  have h1 := cb_le_count t u l
  split
  · omega
  · rename_i hul
    have hup : u ∈ p := by rw [← hp] at hu; exact (List.mem_append.mp hu).resolve_right hul
    rw [← hp, cb_append l hup]
    have := cb_le_count t u p
    omega

theorem before_le {c : Cfg} {t u : Nat} {s : St} (hn : c.ts.Nodup) (hu : u ∈ c.ts) (hc : Cursor c s) : before c t u s ≤ 1 := by
  have hts := cb_round (t := t) (u := u) hn hu (List.suffix_refl c.ts)
  simp only [hu, if_true] at hts
  unfold before
  unfold Cursor at hc
  cases hd : s.d <;> simp only [hd] at hc ⊢
  · omega
  · exact cb_round hn hu hc
  · have := cb_round (t := t) hn hu hc; simp only [List.mem_cons] at this; simp only [eq_comm] at this ⊢; exact this
  · have := cb_round (t := t) hn hu hc; simp only [List.mem_cons] at this; simp only [eq_comm] at this ⊢; exact this
  · exact cb_round hn hu ((List.suffix_cons _ _).trans hc)
  · exact cb_round hn hu ((List.suffix_cons _ _).trans hc)

theorem before_step {c : Cfg} {t u : Nat} (hu : u ∈ c.ts) (htu : t ≠ u) {s s1 : St} {a : Act} {e : List Ev} (h : Due c u s) (hs : step c s a = some (s1, e)) :
    Served u e ∨ polls t e + before c t u s1 ≤ before c t u s := by
  have htr := tr_of_step hs
  generalize a.isDisp = fl at htr
  unfold Due at h
  cases htr <;> grind [Served, Ahead, AtPoll, before, polls, cb, List.mem_cons]

theorem before_exec {c : Cfg} {t u : Nat} (hu : u ∈ c.ts) (htu : t ≠ u) : ∀ {acts : List Act} {s s1 : St} {e : List Ev}, Due c u s →
    exec c s acts = some (s1, e) → Served u e ∨ polls t e + before c t u s1 ≤ before c t u s := by
  intro acts
  induction acts with
  | nil => intro s s1 e _ hx; simp only [exec, Option.some.injEq, Prod.mk.injEq] at hx; obtain ⟨rfl, rfl⟩ := hx; right; simp [polls]
  | cons a as ih =>
    intro s s1 e hd hx
    obtain ⟨s2, e1, e2, h1, h2, rfl⟩ := exec_cons hx
    rcases before_step hu htu hd h1 with h | h
    · exact .inl (served_append (.inl h))
    · rcases due_step hu hd h1 with h' | ⟨h', -⟩
      · exact .inl (served_append (.inl h'))
      · rcases ih h' h2 with h'' | h''
        · exact .inl (served_append (.inr h''))
        · right; rw [polls_append]; omega

theorem called_fair {c : Cfg} {acts0 acts1 acts2 : List Act} {s1 s2 s3 : St} {h0 e2 e3 : List Ev} {i t u : Nat} (hn : c.ts.Nodup)
    (hx : exec c init acts0 = some (s1, h0)) (hu : u ∈ c.ts) (htu : t ≠ u) (hsp : Spawning u i s1)
    (hx1 : exec c s1 acts1 = some (s2, e2)) (hret : s2.pc i = .idle) (hx2 : exec c s2 acts2 = some (s3, e3))
    (hno : ¬ Served u (e2 ++ e3)) : polls t e3 ≤ 1 := by
  rcases spawned_exec hu hsp hx1 hret with h | h
  · exact absurd (served_append (.inl h)) hno
  · rcases before_exec hu htu h hx2 with h' | h'
    · exact absurd (served_append (.inr h')) hno
    · have hc : Cursor c s2 := exec_inv (P := fun s _ => Cursor c s) (fun s h a s1 e => cursor_step s h a s1 e) _ init [] s2 _ (by trivial) (exec_trans hx hx1)
      have := before_le (t := t) (u := u) hn hu hc
      omega

/-- **C77** (spawn) Tasks of one priority cannot starve each other: from the return of an accepted `spawn` of `u` (accepted in the step from `s0` to `s1`, returned in `s2`) until the first poll of `u`, every other task of this priority is
polled at most once, however often it is woken – also if it wakes itself in every poll. -/
theorem C77_spawned_not_starved {c : Cfg} {acts0 acts1 acts2 : List Act} {s0 s1 s2 s3 : St} {h0 e1 e2 e3 : List Ev} {i t u a : Nat} (hn : c.ts.Nodup)
    (hx : exec c init acts0 = some (s0, h0)) (hu : u ∈ c.ts) (htu : t ≠ u)
    (hok : step c s0 (.thr i) = some (s1, e1)) (hev : e1 = [.ok u a])
    (hx1 : exec c s1 acts1 = some (s2, e2)) (hret : s2.pc i = .idle) (hx2 : exec c s2 acts2 = some (s3, e3))
    (hno : .polled u ∉ e2 ++ e3) (hbad : ∀ t', .badPoll t' ∉ e2 ++ e3) : polls t e3 ≤ 1 := by
  obtain ⟨hsp, hb, -⟩ := spawn_accepted hx hok hev
  have hx' : exec c init (acts0 ++ [.thr i]) = some (s1, h0 ++ e1) := exec_trans hx (by simp [exec, hok])
  refine called_fair hn hx' hu htu hsp hx1 hret hx2 ?_
  rintro (h | h | ⟨t', h⟩)
  · exact hno h
  · exact hno (completed_polled hb (exec_trans hx1 hx2) h)
  · exact hbad t' h

/-- **C77** (wake) Likewise from the return of a waker of the live task `u` until `u` is polled again or completes. -/
theorem C77_woken_not_starved {c : Cfg} {acts0 acts1 acts2 : List Act} {s0 s1 s2 s3 : St} {h0 e1 e2 e3 : List Ev} {i t u : Nat} (hn : c.ts.Nodup)
    (hx : exec c init acts0 = some (s0, h0)) (htu : t ≠ u) (hlive : s0.running u = true) (hcall : step c s0 (.callWake i u) = some (s1, e1))
    (hx1 : exec c s1 acts1 = some (s2, e2)) (hret : s2.pc i = .idle) (hx2 : exec c s2 acts2 = some (s3, e3))
    (hno : .polled u ∉ e2 ++ e3) (hcomp : .completed u ∉ e2 ++ e3) (hbad : ∀ t', .badPoll t' ∉ e2 ++ e3) : polls t e3 ≤ 1 := by
  obtain ⟨hu, hsp, -⟩ := wake_called hlive hcall
  have hx' : exec c init (acts0 ++ [.callWake i u]) = some (s1, h0 ++ e1) := exec_trans hx (by simp [exec, hcall])
  refine called_fair hn hx' hu htu hsp hx1 hret hx2 ?_
  rintro (h | h | ⟨t', h⟩)
  · exact hno h
  · exact hcomp h
  · exact hbad t' h

-- task 0 wakes itself in every poll (thread 9 is its body); task 1 is spawned during the first poll of task 0 (thread 5), after the dispatcher has passed it in its list (task 1 comes first): task 0 is not polled again before it
example : ∃ s1 s2 e2 s3, exec { ts := [1, 0], zero := false } init [.callSpawn 0 0 7, .thr 0, .thr 0, .thr 0, .thr 0, .disp false, .disp false, .disp false, .disp false, .disp false, .callWake 9 0, .thr 9, .thr 9, .callSpawn 5 1 8] = some (s1, [.ok 0 7, .started 0 7, .polled 0]) ∧
    exec { ts := [1, 0], zero := false } s1 [.thr 5, .thr 5, .thr 5, .thr 5] = some (s2, e2) ∧ s2.pc 5 = .idle ∧
    exec { ts := [1, 0], zero := false } s2 [.disp false, .disp false, .disp false, .disp false, .disp false, .disp false] = some (s3, [.started 1 8, .polled 1]) :=
  ⟨_, _, _, _, rfl, rfl, rfl, rfl⟩

-- the bound is met: task 0 comes first in the list, is woken and polled once more before task 1
example : ∃ s1 s2 e2 s3, exec demoC init [.callSpawn 0 0 7, .thr 0, .thr 0, .thr 0, .thr 0, .disp false, .disp false, .disp false, .disp false, .disp false, .disp false, .callWake 9 0, .thr 9, .thr 9, .callSpawn 5 1 8] = some (s1, [.ok 0 7, .started 0 7, .polled 0]) ∧
    exec demoC s1 [.thr 5, .thr 5, .thr 5, .thr 5] = some (s2, e2) ∧ s2.pc 5 = .idle ∧
    exec demoC s2 [.disp false, .disp false, .disp false, .disp false, .disp false, .disp false, .disp false, .disp false, .disp false] = some (s3, [.polled 0, .started 1 8, .polled 1]) :=
  ⟨_, _, _, _, rfl, rfl, rfl, rfl⟩

end Verif.Executor
