import Verif.WaitUntil.Model

/-! # C14 -/

namespace Verif.WaitUntil

/-- From the history: has waiter `i` been woken since it last returned `Pending`? -/
def wokenSince (i : Nat) : Bool → List Ev → Bool
  | b, [] => b
  | b, .pending j _ :: tr => wokenSince i (if j = i then false else b) tr
  | b, .woke j _ :: tr => wokenSince i (if j = i then true else b) tr
  | b, _ :: tr => wokenSince i b tr

/-- From the history: the condition was made true, and after that the notifier has popped (and woken) until it found the
queue empty; the condition has stayed true. Phase 0: condition false; 1: true, notifier not finished; 2: notifier finished. -/
def phase : Nat → List Ev → Nat
  | p, [] => p
  | _, .setCond false :: tr => phase 0 tr
  | p, .setCond true :: tr => phase (if p = 0 then 1 else p) tr
  | p, .popNone :: tr => phase (if p = 1 then 2 else p) tr
  | p, _ :: tr => phase p tr

/-- The full English claim of C14: once the condition is true and the notifier has popped and woken everything it found, every
future that is still pending has been woken. -/
def NoMissedWakeup : Prop :=
  ∀ s tr, Reach s tr → phase 0 tr = 2 → ∀ i w, s.pc i = .pend w → wokenSince i false tr = true

/-- **C14** is violated by the code: the condition is set and the (still empty) queue is popped between the call of `f` and the
`push` of the link; the future then waits, unwoken, although the condition holds. -/
theorem C14_missed_wakeup_violated : ¬ NoMissedWakeup := by
  intro h
  have hex : ∃ s tr, exec init [.start 0, .poll 0 7, .go 0, .setCond true, .notify, .go 0] = some (s, tr) ∧
      phase 0 tr = 2 ∧ s.pc 0 = .pend 7 ∧ wokenSince 0 false tr = false ∧ s.cond = true := by
    refine ⟨_, _, rfl, ?_, ?_, ?_, ?_⟩ <;> decide
  obtain ⟨s, tr, he, h1, h2, h3, -⟩ := hex
  have := h s tr ⟨_, he⟩ h1 0 7 h2
  rw [h3] at this; cases this

theorem wokenSince_append (i : Nat) (tr tr' : List Ev) : ∀ b, wokenSince i b (tr ++ tr') = wokenSince i (wokenSince i b tr) tr' := by
  induction tr with
  | nil => intro b; rfl
  | cons x tr ih => intro b; cases x <;> simp [wokenSince, ih]

@[simp] theorem set_self (f : Nat → Pc) (i : Nat) (x : Pc) : set f i x i = x := by simp [set]
theorem set_ne (f : Nat → Pc) (i : Nat) (x : Pc) {j : Nat} (h : j ≠ i) : set f i x j = f j := by simp [set, h]

/-- Every pending future is registered with its current waker, or has been woken. -/
def Registered (s : St) (tr : List Ev) : Prop :=
  ∀ i w, s.pc i = .pend w → (i, w) ∈ s.q ∨ wokenSince i false tr = true

theorem registered_step {s s' : St} {a : Act} {tr e : List Ev} (h : Registered s tr) (hs : step s a = some (s', e)) :
    Registered s' (tr ++ e) := by
  have hun : ∀ (i : Nat) (x : Pc), (∀ w, x ≠ .pend w) →
      Registered { s with q := unlink s.q i, pc := set s.pc i x } tr := by
    intro i x hx j w hj
    by_cases hji : j = i
    · subst hji; simp at hj; exact absurd hj (hx w)
    · simp only [set_ne _ _ _ hji] at hj
      rcases h j w hj with h1 | h1
      · exact .inl (by simp [unlink, h1, hji])
      · exact .inr h1
  cases a with
  | start i =>
    simp only [step] at hs
    split at hs
    · cases hs
      intro j w hj
      by_cases hji : j = i
      · subst hji; simp at hj
      · simp only [set_ne _ _ _ hji] at hj; simpa using h j w hj
    · cases hs
  | poll i w =>
    simp only [step] at hs
    split at hs <;> cases hs <;> simpa using hun i _ (by simp)
  | drop i =>
    simp only [step] at hs
    split at hs <;> cases hs <;> simpa using hun i _ (by simp)
  | setCond b =>
    simp only [step] at hs; cases hs
    intro j w hj
    rw [wokenSince_append]; exact h j w hj
  | notify =>
    simp only [step] at hs
    split at hs
    · cases hs; intro j w hj; rw [wokenSince_append]; exact h j w hj
    · rename_i i w q hq
      cases hs
      intro j w' hj
      rw [wokenSince_append]
      rcases h j w' hj with h1 | h1
      · rw [hq] at h1
        rcases List.mem_cons.1 h1 with h1 | h1
        · cases h1; exact .inr (by simp [wokenSince])
        · exact .inl h1
      · exact .inr (by simp [wokenSince, h1])
  | go i =>
    simp only [step] at hs
    split at hs
    · split at hs <;> cases hs <;> intro j w' hj <;> by_cases hji : j = i
      · subst hji; simp at hj
      · simp only [set_ne _ _ _ hji] at hj; rw [wokenSince_append]; exact h j w' hj
      · subst hji; simp at hj
      · simp only [set_ne _ _ _ hji] at hj; rw [wokenSince_append]; exact h j w' hj
    · cases hs
      intro j w' hj
      rw [wokenSince_append]
      by_cases hji : j = i
      · subst hji; simp at hj; subst hj; exact .inl (by simp)
      · simp only [set_ne _ _ _ hji] at hj
        rcases h j w' hj with h1 | h1
        · exact .inl (by simp [h1])
        · exact .inr (by simp [wokenSince, Ne.symm hji, h1])
    · cases hs

theorem exec_induct {P : St → List Ev → Prop}
    (hstep : ∀ s tr a s' e, P s tr → step s a = some (s', e) → P s' (tr ++ e)) :
    ∀ (as : List Act) (s : St) (tr : List Ev) (s' : St) (es : List Ev), P s tr →
      exec s as = some (s', es) → P s' (tr ++ es)
  | [], s, tr, s', es, h, he => by cases he; simpa using h
  | a :: as, s, tr, s', es, h, he => by
    simp only [exec] at he
    split at he
    · cases he
    · rename_i s1 e hs
      split at he
      · cases he
      · rename_i s2 es' hs2
        cases he
        have := exec_induct hstep as s1 (tr ++ e) _ es' (hstep _ _ _ _ _ h hs) hs2
        simpa using this

/-- **C14 (part)** In every reachable state each pending `wait_until` is in the queue with the waker of its last poll, or
has been woken since. -/
theorem C14_pending_registered {s : St} {tr : List Ev} (h : Reach s tr) {i w : Nat} (hp : s.pc i = .pend w) :
    (i, w) ∈ s.q ∨ wokenSince i false tr = true := by
  obtain ⟨as, he⟩ := h
  have := exec_induct (P := Registered) (fun s tr a s' e h hs => registered_step h hs) as init [] s tr
    (by intro i w h; cases h) he
  simpa using this i w hp

/-- **C14 (part)** If the condition is made true at a moment when no future is between its call of `f` and its `push`
(for instance because check and registration run in one critical section, or because the notifier cannot preempt the waiter),
then no wake-up is missed: in every continuation in which the condition stays true and the notifier has popped until it found
the queue empty, every pending future has been woken. Missing: the case excluded by `hno`, for which the claim is false
(`C14_missed_wakeup_violated`). -/
theorem C14_wait_until_partial {s s' : St} {tr es : List Ev} {as : List Act} (h : Reach s tr)
    (hno : ∀ i w, s.pc i ≠ .checked w) (he : exec s (.setCond true :: as) = some (s', es))
    (hstay : Ev.setCond false ∉ es) (hdone : Ev.popNone ∈ es) {i w : Nat} (hp : s'.pc i = .pend w) :
    wokenSince i false (tr ++ es) = true := by
  obtain ⟨as0, he0⟩ := h
  have hR : Registered s tr := by
    have := exec_induct (P := Registered) (fun s tr a s' e h hs => registered_step h hs) as0 init [] s tr
      (by intro i w h; cases h) he0
    simpa using this
  -- the invariant of the continuation
  let P : St → List Ev → Prop := fun t u => Ev.setCond false ∉ u → Registered t (tr ++ u) ∧ t.cond = true ∧
    (∀ i w, t.pc i ≠ .checked w) ∧ (Ev.popNone ∈ u → t.q = [])
  have hstep : ∀ t u a t' e, P t u → step t a = some (t', e) → P t' (u ++ e) := by
    intro t u a t' e hP hs hst
    have hst' : Ev.setCond false ∉ u := fun h => hst (List.mem_append_left _ h)
    have hse : Ev.setCond false ∉ e := fun h => hst (List.mem_append_right _ h)
    obtain ⟨h1, h2, h3, h4⟩ := hP hst'
    refine ⟨by rw [← List.append_assoc]; exact registered_step h1 hs, ?_⟩
    have hset : ∀ i x, (∀ w, x ≠ Pc.checked w) → ∀ j w, set t.pc i x j ≠ .checked w := by
      intro i x hx j w; by_cases hj : j = i
      · subst hj; simpa using hx w
      · rw [set_ne _ _ _ hj]; exact h3 j w
    cases a with
    | start i =>
      simp only [step] at hs
      split at hs
      · cases hs; exact ⟨h2, hset _ _ (by simp), by simpa using h4⟩
      · cases hs
    | poll i w =>
      simp only [step] at hs
      split at hs <;> cases hs
      · exact ⟨h2, hset _ _ (by simp), by intro hm; simp at hm; simp [h4 hm, unlink]⟩
      · exact ⟨h2, hset _ _ (by simp), by intro hm; simp at hm; simp [h4 hm, unlink]⟩
    | drop i =>
      simp only [step] at hs
      split at hs <;> cases hs
      · exact ⟨h2, hset _ _ (by simp), by intro hm; simp at hm; simp [h4 hm, unlink]⟩
      · exact ⟨h2, hset _ _ (by simp), by intro hm; simp at hm; simp [h4 hm, unlink]⟩
    | setCond b =>
      simp only [step] at hs; cases hs
      cases b with
      | false => simp at hse
      | true => exact ⟨rfl, h3, by intro hm; simp at hm; exact h4 hm⟩
    | notify =>
      simp only [step] at hs
      split at hs
      · rename_i hq; cases hs; exact ⟨h2, h3, fun _ => hq⟩
      · rename_i j w q hq
        cases hs
        refine ⟨h2, h3, ?_⟩
        intro hm; simp at hm; have := h4 hm; rw [hq] at this; cases this
    | go i =>
      simp only [step] at hs
      split at hs
      · rw [if_pos h2] at hs; cases hs
        exact ⟨h2, hset _ _ (by simp), by intro hm; simp at hm; exact h4 hm⟩
      · rename_i w hw; exact absurd hw (h3 i w)
      · cases hs
  simp only [exec, step] at he
  split at he
  · cases he
  · rename_i s2 es' hs2
    cases he
    have hI := exec_induct (P := P) hstep as { s with cond := true } [.setCond true] _ es'
      (by
        intro _
        refine ⟨?_, rfl, hno, by simp⟩
        have := registered_step (a := .setCond true) hR rfl
        simpa using this) hs2
    obtain ⟨h1, -, -, h4⟩ := hI (by simpa using hstay)
    rcases h1 i w hp with h | h
    · rw [h4 (by simpa using hdone)] at h; cases h
    · simpa using h

/-- Non-vacuity of `C14_wait_until_partial`: two waiters are pending when the condition is set; both are woken. -/
example : (exec init [.start 0, .poll 0 7, .go 0, .go 0, .start 1, .poll 1 8, .go 1, .go 1, .setCond true, .notify, .notify,
    .notify]).map (fun r => (r.1.pc 0, r.1.pc 1, r.2.reverse.take 4))
    = some (.pend 7, .pend 8, [.popNone, .woke 1 8, .woke 0 7, .setCond true]) := by decide

/-- **C14 (part)** A future that is polled while the condition holds completes. -/
theorem C14_ready_when_true {s s1 s2 : St} {i w : Nat} {e1 e2 : List Ev} (h1 : step s (.poll i w) = some (s1, e1))
    (hc : s.cond = true) (h2 : step s1 (.go i) = some (s2, e2)) : e2 = [.ready i] ∧ s2.pc i = .none ∧ (∀ w', (i, w') ∉ s2.q) := by
  simp only [step] at h1
  split at h1 <;> cases h1
  all_goals
    simp [step, hc] at h2
    obtain ⟨rfl, rfl⟩ := h2
    simp [unlink]

end Verif.WaitUntil
