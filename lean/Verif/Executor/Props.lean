import Verif.Executor.Inv

/-!
# C36 – C39
-/

namespace Verif.Executor

/-! ## C36 -/

theorem reach_inv {c : Cfg} {acts : List Act} {s : St} {h : List Ev} (hx : exec c init acts = some (s, h)) (t : Nat) : Inv t s h := by
  have := exec_inv (P := Inv t) (inv_step (c := c)) acts init [] s h (inv_init t) hx
  simpa using this

/-- **C36** In every execution, whatever the interleaving: a spawn of `t` returns `Ok` if every accepted instance of `t` so far has completed, and otherwise returns its arguments in `Err`. -/
theorem C36_spawn_ok_iff {c : Cfg} {acts : List Act} {s s1 : St} {h e : List Ev} {i t a : Nat} (hx : exec c init acts = some (s, h))
    (hp : s.pc i = .s1 t a) (hs : step c s (.thr i) = some (s1, e)) :
    ((oks t h).length = dones t h → e = [.ok t a]) ∧ ((oks t h).length ≠ dones t h → e = [.err t a]) := by
  obtain ⟨p, hi⟩ := reach_inv hx t
  have h1 := hi.cnt
  have h2 := hi.run
  simp only [step, stepThr, hp] at hs
  split at hs
  · cases hs
  · cases hr : s.running t <;> rw [hr] at h2 hs <;> rw [← h2] at h1 <;> simp at h1 <;> simp at hs <;> obtain ⟨rfl, rfl⟩ := hs
    · exact ⟨fun _ => rfl, fun hn => absurd h1 hn⟩
    · exact ⟨fun hn => by omega, fun _ => rfl⟩

/-- **C36** At most one instance of a task is live. -/
theorem C36_at_most_one {c : Cfg} {acts : List Act} {s : St} {h : List Ev} (hx : exec c init acts = some (s, h)) (t : Nat) :
    dones t h ≤ (oks t h).length ∧ (oks t h).length ≤ dones t h + 1 := by
  obtain ⟨p, hi⟩ := reach_inv hx t
  have := hi.cnt
  split at this <;> omega

/-- **C36** The bodies of `t` start with exactly the accepted arguments, each once and in order, except that the last accepted ones may not have started yet; when all instances have completed, all have. -/
theorem C36_args_once {c : Cfg} {acts : List Act} {s : St} {h : List Ev} (hx : exec c init acts = some (s, h)) (t : Nat) :
    (oks t h = starts t h ∨ ∃ a, oks t h = starts t h ++ [a]) ∧ ((oks t h).length = dones t h → starts t h = oks t h) := by
  obtain ⟨p, hi⟩ := reach_inv hx t
  have h1 := hi.hist
  have h2 := hi.cnt
  constructor
  · cases p <;> simp only [Ph.extra, List.append_nil] at h1 <;> first | exact .inl h1 | exact .inr ⟨_, h1⟩
  · intro he
    cases p <;> simp [Ph.live] at h2 <;> first | omega | simpa [Ph.extra] using h1.symm

/-- two tasks at a level; task 1 is spawned with 7, a second spawn is refused while the first runs, the task completes and is spawned again -/
def demoC : Cfg := { ts := [0, 1], zero := false }
def demo1 : List Act :=
  [.callSpawn 0 1 7, .thr 0, .thr 0, .callSpawn 9 1 8, .thr 9, .thr 0, .thr 0, .disp false, .disp false, .disp false, .disp false, .disp false, .disp true, .disp false,
   .callSpawn 9 1 9, .thr 9]

example : ∃ s, exec demoC init demo1 = some (s, [.ok 1 7, .err 1 8, .started 1 7, .polled 1, .completed 1, .ok 1 9]) := ⟨_, rfl⟩

/-! ## C39 -/

/-- **C39** After task `t` completes, and as long as no spawn of `t` was accepted since, a spawn of `t` succeeds; and the next execution of the body gets exactly the arguments of this spawn. -/
theorem C39_respawn {c : Cfg} {acts acts2 acts3 : List Act} {s s1 s2 s3 s4 : St} {h e h2 e3 h4 : List Ev} {t i a : Nat} {r : Bool}
    (hx : exec c init acts = some (s, h)) (hs : step c s (.disp r) = some (s1, e)) (hc : .completed t ∈ e)
    (hx2 : exec c s1 acts2 = some (s2, h2)) (hno : oks t h2 = [])
    (hp : s2.pc i = .s1 t a) (hs3 : step c s2 (.thr i) = some (s3, e3)) (hx4 : exec c s3 acts3 = some (s4, h4)) :
    e3 = [.ok t a] ∧ starts t h2 = [] ∧ (starts t h4 = [] ∨ ∃ more, starts t h4 = a :: more) := by
  have hx1 : exec c init (acts ++ [.disp r]) = some (s1, h ++ e) := exec_trans hx (by simp [exec, hs])
  have hxx := exec_trans hx1 hx2
  obtain ⟨p1, hi1⟩ := reach_inv hx1 t
  obtain ⟨p2, hi2⟩ := reach_inv hxx t
  have hrun : s1.running t = false := by
    have htr := tr_of_step hs
    generalize Act.isDisp _ = fl at htr
    cases htr <;> simp at hc
    subst hc; simp [upd_apply]
  have hl1 : p1.live = false := by rw [← hi1.run]; exact hrun
  have c1 := hi1.cnt
  have c2 := hi2.cnt
  rw [oks_append, dones_append, hno, List.append_nil] at c2
  simp only [hl1] at c1
  have hl2 : (oks t ((h ++ e) ++ h2)).length = dones t ((h ++ e) ++ h2) := by
    rw [oks_append, dones_append, hno, List.append_nil]
    simp at c1; split at c2 <;> omega
  have hok := (C36_spawn_ok_iff hxx hp hs3).1 hl2
  have hst1 : oks t (h ++ e) = starts t (h ++ e) := by
    have := (C36_args_once hx1 t).2 (by simpa using c1); exact this.symm
  have hst2 := (C36_args_once hxx t).2 hl2
  have hemp : starts t h2 = [] := by
    rw [starts_append, oks_append, hno, List.append_nil, hst1] at hst2
    simpa using hst2
  refine ⟨hok, hemp, ?_⟩
  subst hok
  have hx3 : exec c init ((acts ++ [.disp r]) ++ acts2 ++ [.thr i]) = some (s3, ((h ++ e) ++ h2) ++ [.ok t a]) := exec_trans hxx (by simp [exec, hs3])
  have hxa := exec_trans hx3 hx4
  have := (C36_args_once hxa t).1
  rw [starts_append t (_ ++ [Ev.ok t a]) h4, starts_append t _ [Ev.ok t a], oks_append t (_ ++ [Ev.ok t a]) h4, oks_append t _ [Ev.ok t a], hst2] at this
  simp only [starts, oks, if_true, List.append_nil, List.append_assoc] at this
  rcases this with h | ⟨b, h⟩
  · right; exact ⟨_, (List.append_cancel_left h).symm⟩
  · have := List.append_cancel_left h
    cases hq : starts t h4 with
    | nil => exact .inl rfl
    | cons x more =>
      rw [hq] at this
      simp only [List.cons_append, List.nil_append, List.cons.injEq] at this
      right; exact ⟨more, by rw [this.1]⟩

/-! ## C37 -/

/-- the dispatcher will still look at `t` in the current round -/
def Ahead (t : Nat) : Dpc → Prop
  | .run rest => t ∈ rest
  | .pend t' rest => t' = t ∨ t ∈ rest
  | .poll _ rest | .body _ rest | .rel _ rest => t ∈ rest
  | .idle => False

def AtPoll (t : Nat) : Dpc → Prop
  | .poll t' _ => t' = t
  | _ => False

/-- `t` is live and is flagged, and the dispatcher will run or is going to poll it -/
def Due (c : Cfg) (t : Nat) (s : St) : Prop :=
  s.running t = true ∧ ((s.pending t = true ∧ (s.irq = true ∨ c.zero = true ∨ Ahead t s.d)) ∨ AtPoll t s.d)

instance (t : Nat) (d : Dpc) : Decidable (Ahead t d) := by unfold Ahead; split <;> infer_instance

/-- upper bound for the number of dispatcher accesses until `t` is polled -/
def bound (c : Cfg) (t : Nat) : Dpc → Nat
  | .idle => 5 * c.ts.length + 2
  | .run rest => 5 * rest.length + 1 + (if t ∈ rest then 0 else 5 * c.ts.length + 3)
  | .pend t' rest => 5 * rest.length + 5 + (if t' = t ∨ t ∈ rest then 0 else 5 * c.ts.length + 3)
  | .poll t' rest => 5 * rest.length + 4 + (if t' = t ∨ t ∈ rest then 0 else 5 * c.ts.length + 3)
  | .body _ rest => 5 * rest.length + 3 + (if t ∈ rest then 0 else 5 * c.ts.length + 3)
  | .rel _ rest => 5 * rest.length + 2 + (if t ∈ rest then 0 else 5 * c.ts.length + 3)

/-- the task was polled or completed, or undefined behaviour happened -/
def Served (t : Nat) (e : List Ev) : Prop := .polled t ∈ e ∨ .completed t ∈ e ∨ ∃ t', .badPoll t' ∈ e

theorem due_step {c : Cfg} {t : Nat} (ht : t ∈ c.ts) {s s1 : St} {a : Act} {e : List Ev} (h : Due c t s)
    (hs : step c s a = some (s1, e)) :
    Served t e ∨ (Due c t s1 ∧ bound c t s1.d + (if a.isDisp then 1 else 0) ≤ bound c t s.d) := by
  have htr := tr_of_step hs
  generalize a.isDisp = fl at htr
  unfold Due at *
  cases htr <;> grind [Served, Ahead, AtPoll, bound]

theorem dispCount_cons (a : Act) (as : List Act) : dispCount (a :: as) = dispCount as + (if a.isDisp then 1 else 0) := by
  cases a <;> simp [dispCount, Act.isDisp]

theorem served_append {t : Nat} {a b : List Ev} : Served t a ∨ Served t b → Served t (a ++ b) := by
  unfold Served; grind

theorem due_exec {c : Cfg} {t : Nat} (ht : t ∈ c.ts) : ∀ {acts : List Act} {s s1 : St} {e : List Ev}, Due c t s →
    exec c s acts = some (s1, e) → bound c t s.d < dispCount acts → Served t e := by
  intro acts
  induction acts with
  | nil => intro s s1 e _ _ h; simp [dispCount] at h
  | cons a as ih =>
    intro s s1 e hd hx hb
    obtain ⟨s2, e1, e2, h1, h2, rfl⟩ := exec_cons hx
    rcases due_step ht hd h1 with h | ⟨h, hle⟩
    · exact served_append (.inl h)
    · rw [dispCount_cons] at hb
      exact served_append (.inr (ih h h2 (by omega)))

theorem bound_le {c : Cfg} {t : Nat} {d : Dpc} (hd : ∀ rest, d = .run rest → rest.length ≤ c.ts.length)
    (hd2 : ∀ t' rest, d = .pend t' rest ∨ d = .poll t' rest ∨ d = .body t' rest ∨ d = .rel t' rest → rest.length < c.ts.length) :
    bound c t d < twoRounds c := by
  unfold bound twoRounds
  cases d with
  | idle => simp only; omega
  | run rest => have := hd rest rfl; simp only; split <;> omega
  | pend t' rest => have := hd2 t' rest (by simp); simp only; split <;> omega
  | poll t' rest => have := hd2 t' rest (by simp); simp only; split <;> omega
  | body t' rest => have := hd2 t' rest (by simp); simp only; split <;> omega
  | rel t' rest => have := hd2 t' rest (by simp); simp only; split <;> omega

/-- the dispatcher has only tasks of its level before it -/
def DOk (c : Cfg) (d : Dpc) : Prop :=
  match d with
  | .idle => True
  | .run rest => rest.length ≤ c.ts.length
  | .pend _ rest | .poll _ rest | .body _ rest | .rel _ rest => rest.length < c.ts.length

theorem dok_step {c : Cfg} (s : St) (h : List Ev) (a : Act) (s1 : St) (e : List Ev) (hi : DOk c s.d)
    (hs : step c s a = some (s1, e)) : DOk c s1.d := by
  have htr := tr_of_step hs
  generalize a.isDisp = fl at htr
  cases htr <;> grind [DOk, List.length_cons]

theorem reach_bound {c : Cfg} {acts : List Act} {s : St} {h : List Ev} (hx : exec c init acts = some (s, h)) (t : Nat) : bound c t s.d < twoRounds c := by
  have := exec_inv (P := fun s _ => DOk c s.d) (fun s h a s1 e => dok_step s h a s1 e) acts init [] s h (by trivial) hx
  apply bound_le
  · intro rest hr; rw [hr] at this; exact this
  · intro t' rest hr; rcases hr with hr | hr | hr | hr <;> rw [hr] at this <;> exact this

/-- the task is live and flagged or about to be polled -/
def Flagged (t : Nat) (s : St) : Prop := s.running t = true ∧ (s.pending t = true ∨ AtPoll t s.d)

theorem flagged_step {c : Cfg} {t : Nat} {s s1 : St} {a : Act} {e : List Ev} (h : Flagged t s)
    (hs : step c s a = some (s1, e)) : Served t e ∨ Flagged t s1 := by
  have htr := tr_of_step hs
  generalize a.isDisp = fl at htr
  unfold Flagged at *
  cases htr <;> grind [Served, AtPoll]

theorem flagged_exec {c : Cfg} {t : Nat} : ∀ {acts : List Act} {s s1 : St} {e : List Ev}, Flagged t s →
    exec c s acts = some (s1, e) → Served t e ∨ Flagged t s1 := by
  intro acts
  induction acts with
  | nil => intro s s1 e h hx; simp only [exec, Option.some.injEq, Prod.mk.injEq] at hx; obtain ⟨rfl, rfl⟩ := hx; exact .inr h
  | cons a as ih =>
    intro s s1 e hd hx
    obtain ⟨s2, e1, e2, h1, h2, rfl⟩ := exec_cons hx
    rcases flagged_step hd h1 with h | h
    · exact .inl (served_append (.inl h))
    · rcases ih h h2 with h | h
      · exact .inl (served_append (.inr h))
      · exact .inr h

/-- the dispatcher is executing the body of `t`, or has just finished it -/
def InBody (t : Nat) (d : Dpc) : Prop := d.isBody t = true ∨ d.isRel t = true

theorem completed_polled {c : Cfg} {t : Nat} : ∀ {acts : List Act} {s s1 : St} {e : List Ev}, ¬ InBody t s.d →
    exec c s acts = some (s1, e) → .completed t ∈ e → .polled t ∈ e := by
  intro acts
  induction acts with
  | nil => intro s s1 e h hx; simp only [exec, Option.some.injEq, Prod.mk.injEq] at hx; obtain ⟨rfl, rfl⟩ := hx; simp
  | cons a as ih =>
    intro s s1 e hd hx hc
    obtain ⟨s2, e1, e2, h1, h2, rfl⟩ := exec_cons hx
    have : .polled t ∈ e1 ∨ (¬ InBody t s2.d ∧ .completed t ∉ e1) := by
      have htr := tr_of_step h1
      generalize a.isDisp = fl at htr
      unfold InBody at *
      cases htr <;> grind [Dpc.isBody, Dpc.isRel]
    rcases this with h | ⟨h, hn⟩
    · exact List.mem_append_left _ h
    · rcases List.mem_append.mp hc with hc | hc
      · exact absurd hc hn
      · exact List.mem_append_right _ (ih h h2 hc)

/-- a spawn of `t` by thread `i` was accepted, or a waker of the live task `t` was called by thread `i`, and the call is under way -/
def Spawning (t i : Nat) (s : St) : Prop :=
  s.running t = true ∧ ((∃ a, s.pc i = .s2 t a) ∨ s.pc i = .s3 t ∨ s.pc i = .w1 t ∨ (s.pc i = .p t ∧ Flagged t s))

theorem spawning_step {c : Cfg} {t i : Nat} {s s1 : St} {a : Act} {e : List Ev} (h : Spawning t i s)
    (hs : step c s a = some (s1, e)) (hn : a = .thr i → s.pc i ≠ .p t) : Served t e ∨ Spawning t i s1 := by
  unfold Spawning at *
  by_cases ha : a = .thr i
  · subst ha
    have := hn rfl
    simp only [step, stepThr] at hs
    split at hs
    · cases hs
    · obtain ⟨hr, ⟨a, h⟩ | h | h | h⟩ := h
      · simp only [h] at hs; cases hs; right; exact ⟨hr, .inr (.inl (by simp [upd_apply]))⟩
      · simp only [h] at hs; cases hs; right; exact ⟨hr, .inr (.inr (.inr ⟨by simp [upd_apply], hr, .inl (by simp [upd_apply])⟩))⟩
      · simp only [h] at hs; cases hs; right; exact ⟨hr, .inr (.inr (.inr ⟨by simp [upd_apply], hr, .inl (by simp [upd_apply])⟩))⟩
      · exact absurd h.1 this
  · have hpc : s.pc i ≠ .idle → s1.pc i = s.pc i := by
      intro hne
      cases a with
      | callSpawn j t' a =>
        simp only [step] at hs
        split at hs
        · cases hs
        · split at hs
          · cases hs; rename_i hh; have : i ≠ j := by rintro rfl; exact hne hh.1
            simp [upd_apply, this]
          · cases hs
      | callWake j t' =>
        simp only [step] at hs
        split at hs
        · cases hs
        · split at hs
          · cases hs; rename_i hh; have : i ≠ j := by rintro rfl; exact hne hh.1
            simp [upd_apply, this]
          · cases hs
      | thr j =>
        have hij : i ≠ j := by rintro rfl; exact ha rfl
        simp only [step, stepThr] at hs
        split at hs
        · cases hs
        · cases hj : s.pc j <;> simp only [hj] at hs
          · cases hs
          · split at hs <;> cases hs <;> simp [upd_apply, hij]
          all_goals (cases hs; simp [upd_apply, hij])
      | disp r =>
        have htr := tr_of_step hs
        simp only [Act.isDisp] at htr
        cases htr <;> rfl
    have hrun : .completed t ∈ e ∨ s1.running t = true := by
      have htr := tr_of_step hs
      have hr := h.1
      generalize a.isDisp = fl at htr
      cases htr <;> grind
    rcases hrun with hrun | hrun
    · exact .inl (.inr (.inl hrun))
    · obtain ⟨-, ⟨a', h⟩ | h | h | ⟨h, hf⟩⟩ := h
      · right; exact ⟨hrun, .inl ⟨a', by rw [hpc (by simp [h])]; exact h⟩⟩
      · right; exact ⟨hrun, .inr (.inl (by rw [hpc (by simp [h])]; exact h))⟩
      · right; exact ⟨hrun, .inr (.inr (.inl (by rw [hpc (by simp [h])]; exact h)))⟩
      · rcases flagged_step hf hs with h' | h'
        · exact .inl h'
        · right; exact ⟨hrun, .inr (.inr (.inr ⟨by rw [hpc (by simp [h])]; exact h, h'⟩))⟩

theorem pc_p_stays {c : Cfg} {t i : Nat} {s s1 : St} {a : Act} {e : List Ev} (h : Spawning t i s)
    (hs : step c s a = some (s1, e)) (hn : ¬ (a = .thr i → s.pc i ≠ .p t)) : Due c t s1 := by
  have ha : a = .thr i := Classical.byContradiction fun h' => hn fun h'' => absurd h'' h'
  have hp : s.pc i = .p t := Classical.byContradiction fun h' => hn fun _ => h'
  subst ha
  obtain ⟨hr, ⟨a, h⟩ | h | h | ⟨-, hf⟩⟩ := h
  · rw [hp] at h; cases h
  · rw [hp] at h; cases h
  · rw [hp] at h; cases h
  · simp only [step, stepThr, hp] at hs
    split at hs
    · cases hs
    · cases hs
      exact ⟨hr, hf.2.imp (fun hh => ⟨hh, .inl rfl⟩) id⟩

/-- a call that has returned (`s2.pc i = .idle`) -/
theorem spawned_exec {c : Cfg} {t i : Nat} (ht : t ∈ c.ts) : ∀ {acts : List Act} {s s2 : St} {e : List Ev}, Spawning t i s →
    exec c s acts = some (s2, e) → s2.pc i = .idle → Served t e ∨ Due c t s2 := by
  intro acts
  induction acts with
  | nil =>
    intro s s2 e h hx hi
    simp only [exec, Option.some.injEq, Prod.mk.injEq] at hx; obtain ⟨rfl, rfl⟩ := hx
    obtain ⟨-, ⟨a, h⟩ | h | h | ⟨h, -⟩⟩ := h <;> rw [hi] at h <;> cases h
  | cons a as ih =>
    intro s s2 e hsp hx hi
    obtain ⟨s1, e1, e2, h1, h2, rfl⟩ := exec_cons hx
    by_cases hn : a = .thr i → s.pc i ≠ .p t
    · rcases spawning_step hsp h1 hn with h | h
      · exact .inl (served_append (.inl h))
      · rcases ih h h2 hi with h | h
        · exact .inl (served_append (.inr h))
        · exact .inr h
    · have hd := pc_p_stays hsp h1 hn
      clear ih h1 hsp hn hx hi
      -- from `Due` on: `Due` is kept until served
      have : Served t e2 ∨ Due c t s2 := by
        induction as generalizing s1 e2 with
        | nil => simp only [exec, Option.some.injEq, Prod.mk.injEq] at h2; obtain ⟨rfl, rfl⟩ := h2; exact .inr hd
        | cons b bs ihb =>
          obtain ⟨s3, e3, e4, h3, h4, rfl⟩ := exec_cons h2
          rcases due_step ht hd h3 with h | ⟨h, -⟩
          · exact .inl (served_append (.inl h))
          · rcases ihb s3 e4 h4 h with h | h
            · exact .inl (served_append (.inr h))
            · exact .inr h
      exact this.imp (fun h => served_append (.inr h)) id

theorem due_kept {c : Cfg} {t : Nat} (ht : t ∈ c.ts) : ∀ {acts : List Act} {s s1 : St} {e : List Ev}, Due c t s →
    exec c s acts = some (s1, e) → Served t e ∨ Due c t s1 := by
  intro acts
  induction acts with
  | nil => intro s s1 e h hx; simp only [exec, Option.some.injEq, Prod.mk.injEq] at hx; obtain ⟨rfl, rfl⟩ := hx; exact .inr h
  | cons a as ih =>
    intro s s1 e hd hx
    obtain ⟨s2, e1, e2, h1, h2, rfl⟩ := exec_cons hx
    rcases due_step ht hd h1 with h | ⟨h, -⟩
    · exact .inl (served_append (.inl h))
    · exact (ih h h2).imp (fun h => served_append (.inr h)) id

theorem ub_exec {c : Cfg} : ∀ {acts : List Act} {s s1 : St} {e : List Ev}, s.ub = false → exec c s acts = some (s1, e) →
    s1.ub = false ∨ ∃ t', .badPoll t' ∈ e := by
  intro acts
  induction acts with
  | nil => intro s s1 e h hx; simp only [exec, Option.some.injEq, Prod.mk.injEq] at hx; obtain ⟨rfl, rfl⟩ := hx; exact .inl h
  | cons a as ih =>
    intro s s1 e hu hx
    obtain ⟨s2, e1, e2, h1, h2, rfl⟩ := exec_cons hx
    have : s2.ub = false ∨ ∃ t', .badPoll t' ∈ e1 := by
      have htr := tr_of_step h1
      generalize a.isDisp = fl at htr
      cases htr <;> grind
    rcases this with h | ⟨t', h⟩
    · exact (ih h h2).imp id fun ⟨t', h⟩ => ⟨t', List.mem_append_right _ h⟩
    · exact .inr ⟨t', List.mem_append_left _ h⟩

theorem ub_of_step {c : Cfg} {s s1 : St} {a : Act} {e : List Ev} (h : step c s a = some (s1, e)) : s.ub = false := by
  unfold step at h
  split at h
  · cases h
  · rename_i hn; simpa using hn

/-- The dispatcher can proceed: it has the processor and does its next access, or its interrupt is pending (or it is the endless loop of priority 0). -/
def Ready (c : Cfg) (s : St) : Prop := ∃ s1 e, step c s (.disp false) = some (s1, e)

theorem due_ready {c : Cfg} {t : Nat} {s : St} (h : Due c t s) (hu : s.ub = false) : Ready c s := by
  unfold Ready step
  rw [if_neg (by simp [hu])]
  simp only [stepDisp]
  cases hd : s.d with
  | idle =>
    simp only [Due, hd, Ahead, AtPoll, or_false] at h
    rw [if_pos (by simpa using h.2.2)]
    exact ⟨_, _, rfl⟩
  | run rest => cases rest <;> exact ⟨_, _, rfl⟩
  | pend t' rest => simp only; split <;> exact ⟨_, _, rfl⟩
  | poll t' rest => simp only; split <;> exact ⟨_, _, rfl⟩
  | body t' rest => exact ⟨_, _, rfl⟩
  | rel t' rest => exact ⟨_, _, rfl⟩

/-- the common part: a call under way in `s1` has returned in `s2` -/
theorem called_served {c : Cfg} {acts0 acts1 acts2 : List Act} {s1 s2 s3 : St} {h0 e2 e3 : List Ev} {i t : Nat}
    (hx : exec c init acts0 = some (s1, h0)) (ht : t ∈ c.ts) (hsp : Spawning t i s1) (hu : s1.ub = false)
    (hx1 : exec c s1 acts1 = some (s2, e2)) (hret : s2.pc i = .idle) (hx2 : exec c s2 acts2 = some (s3, e3)) :
    .polled t ∈ e2 ++ e3 ∨ (InBody t s1.d ∧ .completed t ∈ e2 ++ e3) ∨ (∃ t', .badPoll t' ∈ e2 ++ e3) ∨
      (Ready c s3 ∧ dispCount acts2 < twoRounds c) := by
  have hall := exec_trans hx1 hx2
  by_cases hd : Served t (e2 ++ e3)
  · rcases hd with h | h | h
    · exact .inl h
    · by_cases hb : InBody t s1.d
      · exact .inr (.inl ⟨hb, h⟩)
      · exact .inl (completed_polled hb hall h)
    · exact .inr (.inr (.inl h))
  · have h2 : Due c t s2 := by
      rcases spawned_exec ht hsp hx1 hret with h | h
      · exact absurd (served_append (.inl h)) hd
      · exact h
    have h3 : Due c t s3 := by
      rcases due_kept ht h2 hx2 with h | h
      · exact absurd (served_append (.inr h)) hd
      · exact h
    rcases ub_exec hu hall with hu | hu
    · refine .inr (.inr (.inr ⟨due_ready h3 hu, ?_⟩))
      refine Classical.byContradiction fun hn => hd (served_append (.inr (due_exec ht h2 hx2 ?_)))
      have := reach_bound (exec_trans hx hx1) t
      omega
    · exact .inr (.inr (.inl hu))

theorem wake_called {c : Cfg} {s0 s1 : St} {e1 : List Ev} {i t : Nat} (hlive : s0.running t = true) (hcall : step c s0 (.callWake i t) = some (s1, e1)) :
    t ∈ c.ts ∧ Spawning t i s1 ∧ s1.ub = false ∧ s1.d = s0.d := by
  have hu := ub_of_step hcall
  simp only [step, hu, Bool.false_eq_true, if_false] at hcall
  split at hcall
  · rename_i h
    cases hcall
    exact ⟨h.2, ⟨hlive, .inr (.inr (.inl (by simp [upd_apply])))⟩, rfl, rfl⟩
  · cases hcall

theorem spawn_accepted {c : Cfg} {acts0 : List Act} {s0 s1 : St} {h0 e1 : List Ev} {i t a : Nat}
    (hx : exec c init acts0 = some (s0, h0)) (hok : step c s0 (.thr i) = some (s1, e1)) (hev : e1 = [.ok t a]) :
    Spawning t i s1 ∧ ¬ InBody t s1.d ∧ s1.ub = false := by
  obtain ⟨p, hi⟩ := reach_inv hx t
  have hu := ub_of_step hok
  simp only [step, hu, Bool.false_eq_true, if_false, stepThr] at hok
  cases hp : s0.pc i <;> simp only [hp] at hok <;> (try (first | (cases hok; done) | (cases hok; simp at hev; done)))
  split at hok
  · cases hok; simp at hev
  · rename_i hr
    cases hok
    simp only [List.cons.injEq, Ev.ok.injEq, and_true] at hev
    obtain ⟨rfl, rfl⟩ := hev
    have hpl : p.live = false := by rw [← hi.run]; simpa using hr
    refine ⟨⟨by simp [upd_apply], .inl ⟨_, by simp [upd_apply]; rfl⟩⟩, ?_, rfl⟩
    rintro (h | h)
    · have := hi.bod h; cases p <;> simp_all [Ph.live, Ph.isBegun]
    · have := hi.rel.mp h; subst this; simp [Ph.live] at hpl

/-- **C37** (wake) Let a waker of task `t` be called (the step from `s0` to `s1`) while `t` is live, in any interleaving, and let the call have returned in `s2`. Then at every later moment (`s3`) the task has been polled after the call began – the only
exception is that the body of `t` was just running at that moment and returned `Ready` – or the dispatcher is ready to proceed; and it has been polled as soon as the dispatcher has got enough processor time (two rounds, `twoRounds`), interleaved with
anything. (Or the model has stopped because of undefined behaviour, see C38.) -/
theorem C37_woken_is_polled {c : Cfg} {acts0 acts1 acts2 : List Act} {s0 s1 s2 s3 : St} {h0 e1 e2 e3 : List Ev} {i t : Nat}
    (hx : exec c init acts0 = some (s0, h0)) (hlive : s0.running t = true) (hcall : step c s0 (.callWake i t) = some (s1, e1))
    (hx1 : exec c s1 acts1 = some (s2, e2)) (hret : s2.pc i = .idle) (hx2 : exec c s2 acts2 = some (s3, e3)) :
    .polled t ∈ e2 ++ e3 ∨ (InBody t s0.d ∧ .completed t ∈ e2 ++ e3) ∨ (∃ t', .badPoll t' ∈ e2 ++ e3) ∨
      (Ready c s3 ∧ dispCount acts2 < twoRounds c) := by
  have hx' : exec c init (acts0 ++ [.callWake i t]) = some (s1, h0 ++ e1) := exec_trans hx (by simp [exec, hcall])
  have h1 := wake_called hlive hcall
  obtain ⟨ht, hsp, hu1, hd⟩ := h1
  exact hd ▸ called_served hx' ht hsp hu1 hx1 hret hx2

/-- **C37** (wake, the poll is later than the flag) As `C37_woken_is_polled`, counting from the moment in which the waker sets the flag of `t` (step from `s0` to `s1`): a poll that the dispatcher had already begun then is not what the waker gets. -/
theorem C37_flagged_is_polled {c : Cfg} {acts0 acts1 acts2 : List Act} {s0 s1 s2 s3 : St} {h0 e1 e2 e3 : List Ev} {i t : Nat}
    (hx : exec c init acts0 = some (s0, h0)) (ht : t ∈ c.ts) (hlive : s0.running t = true)
    (hw : s0.pc i = .w1 t) (hset : step c s0 (.thr i) = some (s1, e1))
    (hx1 : exec c s1 acts1 = some (s2, e2)) (hret : s2.pc i = .idle) (hx2 : exec c s2 acts2 = some (s3, e3)) :
    .polled t ∈ e2 ++ e3 ∨ (InBody t s0.d ∧ .completed t ∈ e2 ++ e3) ∨ (∃ t', .badPoll t' ∈ e2 ++ e3) ∨
      (Ready c s3 ∧ dispCount acts2 < twoRounds c) := by
  have hu := ub_of_step hset
  have hx' : exec c init (acts0 ++ [.thr i]) = some (s1, h0 ++ e1) := exec_trans hx (by simp [exec, hset])
  have h1 : Spawning t i s1 ∧ s1.ub = false ∧ s1.d = s0.d := by
    simp only [step, hu, Bool.false_eq_true, if_false, stepThr, hw] at hset
    cases hset
    exact ⟨⟨hlive, .inr (.inr (.inr ⟨by simp [upd_apply], hlive, .inl (by simp [upd_apply])⟩))⟩, rfl, rfl⟩
  obtain ⟨hsp, hu1, hd⟩ := h1
  exact hd ▸ called_served hx' ht hsp hu1 hx1 hret hx2

/-- **C37** (spawn) If `spawn` of `t` is accepted (step from `s0` to `s1`) in any interleaving and the call has returned in `s2`, then at every later moment (`s3`) the task has been polled or the dispatcher is ready to proceed; and it has been
polled as soon as the dispatcher has got enough processor time (`twoRounds`), interleaved with anything. (Or the model has stopped because of undefined behaviour, see C38.) -/
theorem C37_spawned_is_polled {c : Cfg} {acts0 acts1 acts2 : List Act} {s0 s1 s2 s3 : St} {h0 e1 e2 e3 : List Ev} {i t a : Nat}
    (hx : exec c init acts0 = some (s0, h0)) (ht : t ∈ c.ts) (hok : step c s0 (.thr i) = some (s1, e1)) (hev : e1 = [.ok t a])
    (hx1 : exec c s1 acts1 = some (s2, e2)) (hret : s2.pc i = .idle) (hx2 : exec c s2 acts2 = some (s3, e3)) :
    .polled t ∈ e2 ++ e3 ∨ (∃ t', .badPoll t' ∈ e2 ++ e3) ∨ (Ready c s3 ∧ dispCount acts2 < twoRounds c) := by
  have hx' : exec c init (acts0 ++ [.thr i]) = some (s1, h0 ++ e1) := exec_trans hx (by simp [exec, hok])
  have h1 := spawn_accepted hx hok hev
  obtain ⟨hsp, hb, hu1⟩ := h1
  rcases called_served hx' ht hsp hu1 hx1 hret hx2 with h | h | h | h
  · exact .inl h
  · exact absurd h.1 hb
  · exact .inr (.inl h)
  · exact .inr (.inr h)

-- without a wake-up the dispatcher is not ready: the conclusion says something
example : ¬ Ready demoC init := by
  rintro ⟨s1, e, h⟩
  simp [step, stepDisp, init, demoC] at h

-- wake while the body of task 1 runs (thread 5): the task is polled a second time
example : ∃ s, exec demoC init [.callSpawn 0 1 7, .thr 0, .thr 0, .thr 0, .thr 0, .disp false, .disp false, .disp false, .disp false, .disp false,
    .callWake 5 1, .thr 5, .disp false, .thr 5, .disp false, .disp false, .disp false, .disp false, .disp false, .disp false]
    = some (s, [.ok 1 7, .started 1 7, .polled 1, .polled 1]) := ⟨_, rfl⟩

/-! ## C38 -/

theorem polls_append (t : Nat) (a b : List Ev) : polls t (a ++ b) = polls t a + polls t b := by
  induction a with
  | nil => simp [polls]
  | cons e a ih => cases e <;> simp [polls, ih] <;> split <;> omega

/-- polls still owed: the flag is set, or it has just been taken -/
def owed (t : Nat) (s : St) : Nat :=
  (if s.pending t then 1 else 0) + (match s.d with | .poll t' _ => if t' = t then 1 else 0 | _ => 0)

theorem owed_step {c : Cfg} {t : Nat} {s s1 : St} {a : Act} {e : List Ev} (hs : step c s a = some (s1, e)) :
    polls t e + owed t s1 ≤ owed t s + (if flags t s a then 1 else 0) := by
  unfold step at hs
  split at hs
  · cases hs
  · cases a with
    | callSpawn i t a => simp only at hs; split at hs <;> cases hs; simp [owed, polls]
    | callWake i t => simp only at hs; split at hs <;> cases hs; simp [owed, polls]
    | thr i =>
      simp only [stepThr] at hs
      split at hs
      all_goals first
        | cases hs; done
        | (split at hs <;> cases hs <;> simp_all [owed, polls, flags, upd] <;> done)
        | (cases hs; rename_i hpc; simp only [owed, polls, flags, upd, hpc]; grind)
    | disp r =>
      simp only [stepDisp] at hs
      split at hs
      all_goals (rename_i hd)
      all_goals first
        | (cases hs; simp only [owed, polls, flags, hd]; grind)
        | (split at hs <;> cases hs <;> simp only [owed, polls, flags, upd, hd] <;> grind)

theorem owed_exec {c : Cfg} {t : Nat} : ∀ {acts : List Act} {s s1 : St} {e : List Ev}, exec c s acts = some (s1, e) →
    polls t e + owed t s1 ≤ owed t s + flagCount c t s acts := by
  intro acts
  induction acts with
  | nil => intro s s1 e h; simp only [exec, Option.some.injEq, Prod.mk.injEq] at h; obtain ⟨rfl, rfl⟩ := h; simp [polls, flagCount]
  | cons a as ih =>
    intro s s1 e h
    obtain ⟨s2, e1, e2, h1, h2, rfl⟩ := exec_cons h
    have := owed_step (t := t) h1
    have := ih h2
    simp only [polls_append, flagCount, h1]
    omega

/-- **C63** In every execution a task is polled at most as often as its spawns and wakers made it due: there is no poll without a reason. -/
theorem C63_no_idle_polls {c : Cfg} {acts : List Act} {s : St} {h : List Ev} (hx : exec c init acts = some (s, h)) (t : Nat) :
    polls t h ≤ flagCount c t init acts := by
  have := owed_exec (t := t) hx
  simp only [owed, init] at this ⊢
  simp at this; omega

/-- **C63** From any point of an execution on: when the task is not due there (flag clear, not about to be polled), it is polled only after a spawn or a waker made it due again; in particular a task nobody wakes is not polled. -/
theorem C63_not_due_not_polled {c : Cfg} {acts0 acts : List Act} {s s1 : St} {h0 h : List Ev} {t : Nat} (_hx0 : exec c init acts0 = some (s, h0))
    (hf : s.pending t = false) (hp : ∀ rest, s.d ≠ .poll t rest) (hx : exec c s acts = some (s1, h)) :
    polls t h ≤ flagCount c t s acts := by
  have := owed_exec (t := t) hx
  have h0 : owed t s = 0 := by
    unfold owed
    rw [if_neg (by simp [hf])]
    cases hd : s.d <;> simp
    intro ht
    subst ht
    exact hp _ hd
  omega

-- a task is spawned, polled, woken and polled: two reasons, two polls
example : ∃ s h, exec demoC init [.callSpawn 0 1 7, .thr 0, .thr 0, .thr 0, .thr 0, .disp false, .disp false, .disp false, .disp false, .disp false, .disp false, .disp false,
      .callWake 5 1, .thr 5, .thr 5, .disp false, .disp false, .disp false, .disp false, .disp false, .disp true, .disp false] = some (s, h) ∧ polls 1 h = 2 ∧
    flagCount demoC 1 init [.callSpawn 0 1 7, .thr 0, .thr 0, .thr 0, .thr 0, .disp false, .disp false, .disp false, .disp false, .disp false, .disp false, .disp false,
      .callWake 5 1, .thr 5, .thr 5, .disp false, .disp false, .disp false, .disp false, .disp false, .disp true, .disp false] = 2 := by
  refine ⟨_, _, rfl, ?_, ?_⟩ <;> rfl

/-- **C38** (violated) A waker of a task that is not running leaves its flag set. If a lower-priority spawner is then preempted by the dispatcher between the allocation and the storing of the future, the dispatcher polls memory that has never been written. -/
theorem C38_uninitialised_violated : ∃ acts s tr, exec { ts := [0, 1], zero := false } init acts = some (s, tr) ∧ .badPoll 1 ∈ tr ∧
    s.slot 1 = .empty := by
  refine ⟨[.callWake 5 1, .thr 5, .thr 5, .callSpawn 0 1 7, .thr 0, .disp false, .disp false, .disp false, .disp false, .disp false], _, _, rfl, ?_, ?_⟩ <;> decide

/-- **C38** (violated) A wake-up during the last poll of a task does the same to the next spawn: the completed future is polled again. -/
theorem C38_completed_violated : ∃ acts s tr, exec { ts := [1], zero := false } init acts = some (s, tr) ∧ .badPoll 1 ∈ tr ∧
    s.slot 1 = .done ∧ tr = [.ok 1 7, .started 1 7, .polled 1, .completed 1, .ok 1 8, .badPoll 1] := by
  refine ⟨[.callSpawn 0 1 7, .thr 0, .thr 0, .thr 0, .thr 0, .disp false, .disp false, .disp false, .disp false, .callWake 5 1, .thr 5, .disp true, .disp false, .disp false,
    .thr 5, .callSpawn 0 1 8, .thr 0, .disp false, .disp false, .disp false, .disp false], _, _, rfl, ?_, ?_, rfl⟩ <;> decide

/-- a condition on every state in which the schedule lets the dispatcher take a step -/
def AtDisp (c : Cfg) (G : St → Prop) : St → List Act → Prop
  | _, [] => True
  | s, a :: as => (a.isDisp = true → G s) ∧ ∀ s1 e, step c s a = some (s1, e) → AtDisp c G s1 as

/-- the dispatcher does not find a set flag of a task whose future is just being stored -/
def NoStaleFlag (s : St) : Prop := ∀ i t a, s.pc i = .s2 t a → s.pending t = false

/-- no thread is between allocation and storing -/
def NoneStoring (s : St) : Prop := ∀ i t a, s.pc i ≠ .s2 t a

/-- invariant of the schedules considered: a task about to be polled is live -/
def PollOk (s : St) : Prop := ∀ t, (AtPoll t s.d → s.slot t ≠ .empty ∧ s.slot t ≠ .done)

theorem pollok_step {c : Cfg} {s s1 : St} {h e : List Ev} {a : Act} (hi : ∀ t, Inv t s h) (hp : PollOk s)
    (hg : a.isDisp = true → NoStaleFlag s) (hs : step c s a = some (s1, e)) : PollOk s1 ∧ ∀ t, .badPoll t ∉ e := by
  have htr := tr_of_step hs
  generalize a.isDisp = fl at htr hg
  cases htr with
  | dclear t rest hd hpd =>
    refine ⟨?_, by simp⟩
    intro t' h'
    simp only [AtPoll] at h'
    subst h'
    obtain ⟨p, hpi⟩ := hi t
    have hl := hpi.on (by simp [hd, Dpc.on])
    have hns : ∀ i a, p ≠ .storing i a := fun i a hpp => by
      have := hg rfl i t a ((hpi.pcs i a).mpr hpp)
      rw [hpd] at this; cases this
    have hnf : p ≠ .fin := fun hpp => by have := hpi.rel.mpr hpp; simp [hd, Dpc.isRel] at this
    have hsl := hpi.slot
    cases p with
    | idle => simp [Ph.live] at hl
    | storing i a => exact absurd rfl (hns i a)
    | fresh a => simp only [Ph.slotOk] at hsl; simp [hsl]
    | begun a => simp only [Ph.slotOk] at hsl; simp [hsl]
    | fin => exact absurd rfl hnf
  | dbad t rest hd hsl =>
    have := hp t (by simp [hd, AtPoll])
    rcases hsl with h | h
    · exact absurd h this.1
    · exact absurd h this.2
  | dready t rest hd => exact ⟨fun t' h' => by simp [AtPoll] at h', by simp⟩
  | store i t a hpc =>
    refine ⟨fun t' h' => ?_, by simp⟩
    have := hp t' h'
    simp only [upd_apply]
    split <;> simp [this]
  | dfirst => exact ⟨fun t' h' => by simp [AtPoll] at h', by simp⟩
  | _ => exact ⟨fun t' h' => by first | exact hp t' h' | simp [AtPoll] at h', by simp⟩

theorem nobad_exec {c : Cfg} : ∀ {acts : List Act} {s s1 : St} {h e : List Ev}, (∀ t, Inv t s h) → PollOk s →
    AtDisp c NoStaleFlag s acts → exec c s acts = some (s1, e) → ∀ t, .badPoll t ∉ e := by
  intro acts
  induction acts with
  | nil => intro s s1 h e _ _ _ hx; simp only [exec, Option.some.injEq, Prod.mk.injEq] at hx; obtain ⟨rfl, rfl⟩ := hx; simp
  | cons a as ih =>
    intro s s1 h e hi hp hg hx t
    obtain ⟨s2, e1, e2, h1, h2, rfl⟩ := exec_cons hx
    obtain ⟨hp2, hn⟩ := pollok_step hi hp hg.1 h1
    have := ih (h := h ++ e1) (fun t => inv_step s h a s2 e1 (hi t) h1) hp2 (hg.2 s2 e1 h1) h2 t
    simp only [List.mem_append, not_or]
    exact ⟨hn t, this⟩

/-- **C38** (partial) In every schedule in which no flag of a task is set while its future is being stored (no waker of an instance outlives it, or it is not used in that window), only live futures are polled. -/
theorem C38_no_stale_flag_partial {c : Cfg} {acts : List Act} {s : St} {tr : List Ev} (hg : AtDisp c NoStaleFlag init acts)
    (hx : exec c init acts = some (s, tr)) : ∀ t, .badPoll t ∉ tr :=
  nobad_exec (h := []) inv_init (fun t h => by simp [init, AtPoll] at h) hg hx

theorem atDisp_mono {c : Cfg} {G H : St → Prop} (hgh : ∀ s, G s → H s) : ∀ {acts : List Act} {s : St}, AtDisp c G s acts → AtDisp c H s acts := by
  intro acts
  induction acts with
  | nil => intro s _; trivial
  | cons a as ih => intro s h; exact ⟨fun ha => hgh s (h.1 ha), fun s1 e hs => ih (h.2 s1 e hs)⟩

/-- **C38** (partial) In every schedule in which the dispatcher does not preempt a spawn between allocation and storing (spawners of at least the dispatcher's priority, or spawning inside a critical section), only live futures are polled — whatever stale wakers do. -/
theorem C38_unpreempted_spawn_partial {c : Cfg} {acts : List Act} {s : St} {tr : List Ev} (hg : AtDisp c NoneStoring init acts)
    (hx : exec c init acts = some (s, tr)) : ∀ t, .badPoll t ∉ tr :=
  C38_no_stale_flag_partial (atDisp_mono (fun _ h i t a hp => absurd hp (h i t a)) hg) hx

theorem atDisp_cons {c : Cfg} {G : St → Prop} {s s1 : St} {e : List Ev} {a : Act} {as : List Act} (h : step c s a = some (s1, e))
    (hg : a.isDisp = true → G s) (hr : AtDisp c G s1 as) : AtDisp c G s (a :: as) :=
  ⟨hg, fun s2 e2 h2 => by rw [h] at h2; cases h2; exact hr⟩

-- a stale wake, then a spawn that is not preempted, then the dispatcher: satisfies the hypotheses, and the task is polled
example : AtDisp demoC NoneStoring init [.callWake 5 1, .thr 5, .thr 5, .callSpawn 0 1 7, .thr 0, .thr 0, .disp false, .disp false, .disp false, .disp false, .disp false] ∧
    ∃ s, exec demoC init [.callWake 5 1, .thr 5, .thr 5, .callSpawn 0 1 7, .thr 0, .thr 0, .disp false, .disp false, .disp false, .disp false, .disp false]
      = some (s, [.ok 1 7, .started 1 7, .polled 1]) := by
  refine ⟨?_, _, rfl⟩
  iterate 11
    refine atDisp_cons rfl (fun ha => ?_) ?_
    first
      | exact absurd ha (by decide)
      | (intro i t a; by_cases h0 : i = 0 <;> by_cases h5 : i = 5 <;> simp [init, upd, h0, h5])
  trivial

end Verif.Executor
