import Verif.TimerQueue.Inv

/-!
# `Timeout`

Model of `Timeout::poll`, `rtic-time/src/timer_queue.rs:275-294`. The inner future is an arbitrary state machine `f : S → Option V × S` (`some v`: ready).
A poll of the delay is reduced to its readiness test (`timer_queue.rs:220-222`); its other effects are in `Verif.TimerQueue.Model`.
The executor polls at the (true) times of the list `ts`, and stops at the first result that is not pending.
-/

namespace Verif.TimerQueue

/-- Result of a poll of `Timeout`. -/
inductive TRes (V : Type) where
  | ok (v : V)
  | timeout
  | pending
deriving DecidableEq, Repr

variable {S V : Type}

/-- `Timeout::poll`, `timer_queue.rs:275-294`, at true time `now` with deadline `t`. -/
def pollTimeout (w : Nat) (f : S → Option V × S) (t : Nat) (now : Nat) (s : S) : TRes V × S :=
  match f s with
  | (some v, s') => (.ok v, s')
  | (none, s') => if atLeast w now t then (.timeout, s') else (.pending, s')

/-- Polling at the times `ts` until the result is not pending: result, number of polls of the inner future, final inner state. -/
def runTimeout (w : Nat) (f : S → Option V × S) (t : Nat) : List Nat → S → TRes V × Nat × S
  | [], s => (.pending, 0, s)
  | now :: ts, s =>
    match pollTimeout w f t now s with
    | (.pending, s') =>
      let r := runTimeout w f t ts s'
      (r.1, r.2.1 + 1, r.2.2)
    | (r, s') => (r, 1, s')

/-- Specification: the inner future polled on its own: the result of the `k`-th poll (from 0). -/
def innerAt (f : S → Option V × S) : Nat → S → Option V
  | 0, s => (f s).1
  | k + 1, s => innerAt f k (f s).2

theorem run_cases (w : Nat) (f : S → Option V × S) (t : Nat) : ∀ (ts : List Nat) (s : S) (k : Nat),
    (∀ j < k, innerAt f j s = none) → (∀ j < k, ∃ n, ts[j]? = some n ∧ atLeast w n t = false) → ∀ now, ts[k]? = some now →
    (∀ v, innerAt f k s = some v → (runTimeout w f t ts s).1 = .ok v ∧ (runTimeout w f t ts s).2.1 = k + 1) ∧
    (innerAt f k s = none → atLeast w now t = true → (runTimeout w f t ts s).1 = .timeout ∧ (runTimeout w f t ts s).2.1 = k + 1)
  | [], s, k, _, _, now, h => by simp at h
  | n :: ts, s, 0, _, _, now, h => by
    simp at h; subst h
    simp only [innerAt, runTimeout, pollTimeout]
    rcases hf : f s with ⟨_ | v, s'⟩
    · refine ⟨by simp, fun _ ht => ?_⟩; simp [ht]
    · refine ⟨fun v' hv => ?_, by simp⟩; simp at hv; subst hv; simp
  | n :: ts, s, k + 1, hi, ht, now, h => by
    simp only [List.getElem?_cons_succ] at h
    have h0 := hi 0 (by omega)
    obtain ⟨n', hn', hlt⟩ := ht 0 (by omega)
    simp at hn'; subst hn'
    have ih := run_cases w f t ts (f s).2 k (fun j hj => hi (j + 1) (by omega))
      (fun j hj => by obtain ⟨m, hm, hl⟩ := ht (j + 1) (by omega); exact ⟨m, by simpa using hm, hl⟩) now h
    simp only [innerAt] at h0 ⊢
    simp only [runTimeout, pollTimeout]
    rcases hf : f s with ⟨_ | v, s'⟩
    · rw [hf] at ih
      simp only [hlt, Bool.false_eq_true, if_false]
      exact ⟨fun v hv => ⟨(ih.1 v hv).1, by rw [(ih.1 v hv).2]⟩, fun h1 h2 => ⟨(ih.2 h1 h2).1, by rw [(ih.2 h1 h2).2]⟩⟩
    · rw [hf] at h0; cases h0

theorem run_pending (w : Nat) (f : S → Option V × S) (t : Nat) : ∀ (ts : List Nat) (s : S),
    (∀ j < ts.length, innerAt f j s = none) → (∀ n ∈ ts, atLeast w n t = false) → (runTimeout w f t ts s).1 = .pending
  | [], s, _, _ => rfl
  | n :: ts, s, hi, ht => by
    have h0 := hi 0 (by simp)
    simp only [innerAt] at h0
    simp only [runTimeout, pollTimeout]
    rcases hf : f s with ⟨_ | v, s'⟩
    · simp only [ht n List.mem_cons_self, Bool.false_eq_true, if_false]
      have := run_pending w f t ts (f s).2 (fun j hj => hi (j + 1) (by simp; omega)) (fun m hm => ht m (List.mem_cons_of_mem _ hm))
      rw [hf] at this; exact this
    · rw [hf] at h0; cases h0

/-- The first poll at which the inner future is ready or the deadline is reached. -/
theorem first_event (w : Nat) (f : S → Option V × S) (t : Nat) : ∀ (ts : List Nat) (s : S),
    ((∀ j < ts.length, innerAt f j s = none) ∧ ∀ n ∈ ts, atLeast w n t = false) ∨
    ∃ k now, ts[k]? = some now ∧ (∀ j < k, innerAt f j s = none) ∧ (∀ j < k, ∃ n, ts[j]? = some n ∧ atLeast w n t = false) ∧
      (innerAt f k s ≠ none ∨ atLeast w now t = true)
  | [], s => .inl ⟨by simp, by simp⟩
  | n :: ts, s => by
    by_cases h : innerAt f 0 s ≠ none ∨ atLeast w n t = true
    · exact .inr ⟨0, n, by simp, by omega, by omega, h⟩
    · have h1 : innerAt f 0 s = none := Decidable.not_not.1 (fun hc => h (.inl hc))
      have h2 : atLeast w n t = false := by
        cases hh : atLeast w n t with
        | false => rfl
        | true => exact absurd (.inr hh) h
      rcases first_event w f t ts (f s).2 with ⟨h3, h4⟩ | ⟨k, now, h3, h4, h5, h6⟩
      · refine .inl ⟨?_, ?_⟩
        · intro j hj
          cases j with
          | zero => exact h1
          | succ j => exact h3 j (by simp at hj; omega)
        · intro m hm; rcases List.mem_cons.1 hm with rfl | hm
          · exact h2
          · exact h4 m hm
      · refine .inr ⟨k + 1, now, by simpa using h3, ?_, ?_, h6⟩
        · intro j hj
          cases j with
          | zero => exact h1
          | succ j => exact h4 j (by omega)
        · intro j hj
          cases j with
          | zero => exact ⟨n, by simp, h2⟩
          | succ j => obtain ⟨m, hm, hl⟩ := h5 j (by omega); exact ⟨m, by simpa using hm, hl⟩

/-- **C30** For any inner future, deadline and poll times (within half the counter range of the deadline): the `Timeout` gives `Ok(v)` exactly if there is
a poll at which the inner future is ready with `v` while at all earlier polls it was pending and the deadline not reached (whether
or not the deadline is reached at that poll); the inner future is then polled exactly once per poll and not after it was ready. -/
theorem C30_ok_iff {w : Nat} (hw : 0 < w) (f : S → Option V × S) (t : Nat) (ts : List Nat) (s : S) (hts : ∀ n ∈ ts, near w n t = true) (v : V) :
    (runTimeout w f t ts s).1 = .ok v ↔
      ∃ k, k < ts.length ∧ innerAt f k s = some v ∧ (∀ j < k, innerAt f j s = none) ∧ (∀ j n, j < k → ts[j]? = some n → n < t) ∧
        (runTimeout w f t ts s).2.1 = k + 1 := by
  have hat : ∀ n ∈ ts, atLeast w n t = false ↔ n < t := by
    intro n hn; rw [atLeast_eq hw (hts n hn)]; simp
  constructor
  · intro h
    rcases first_event w f t ts s with ⟨h1, h2⟩ | ⟨k, now, h1, h2, h3, h4⟩
    · rw [run_pending w f t ts s h1 h2] at h; cases h
    · obtain ⟨c1, c2⟩ := run_cases w f t ts s k h2 h3 now h1
      cases hi : innerAt f k s with
      | none =>
        have := c2 hi (h4.resolve_left (by simp [hi]))
        rw [this.1] at h; cases h
      | some v' =>
        have := c1 v' hi
        rw [this.1] at h; cases h
        refine ⟨k, (List.getElem?_eq_some_iff.1 h1).1, hi, h2, ?_, this.2⟩
        intro j n hj hn
        obtain ⟨m, hm, hl⟩ := h3 j hj
        rw [hn] at hm; cases hm
        exact (hat n (List.mem_of_getElem? hn)).1 hl
  · rintro ⟨k, hk, hi, h2, h3, -⟩
    have hk' : ts[k]? = some ts[k] := List.getElem?_eq_getElem hk
    refine ((run_cases w f t ts s k h2 ?_ _ hk').1 v hi).1
    intro j hj
    have hjl : j < ts.length := by omega
    exact ⟨ts[j], List.getElem?_eq_getElem hjl, (hat _ (List.getElem_mem hjl)).2 (h3 j _ hj (List.getElem?_eq_getElem hjl))⟩

/-- **C30** The `Timeout` gives the timeout error exactly if there is a poll at or after the deadline at which the inner future is (still)
pending, and at all earlier polls the inner future was pending and the deadline not reached. -/
theorem C30_timeout_iff {w : Nat} (hw : 0 < w) (f : S → Option V × S) (t : Nat) (ts : List Nat) (s : S) (hts : ∀ n ∈ ts, near w n t = true) :
    (runTimeout w f t ts s).1 = .timeout ↔
      ∃ k now, ts[k]? = some now ∧ t ≤ now ∧ (∀ j ≤ k, innerAt f j s = none) ∧ (∀ j n, j < k → ts[j]? = some n → n < t) := by
  have hat : ∀ n ∈ ts, atLeast w n t = false ↔ n < t := by
    intro n hn; rw [atLeast_eq hw (hts n hn)]; simp
  constructor
  · intro h
    rcases first_event w f t ts s with ⟨h1, h2⟩ | ⟨k, now, h1, h2, h3, h4⟩
    · rw [run_pending w f t ts s h1 h2] at h; cases h
    · obtain ⟨c1, c2⟩ := run_cases w f t ts s k h2 h3 now h1
      cases hi : innerAt f k s with
      | some v' => rw [(c1 v' hi).1] at h; cases h
      | none =>
        have ha := h4.resolve_left (by simp [hi])
        refine ⟨k, now, h1, ?_, ?_, ?_⟩
        · have := hat now (List.mem_of_getElem? h1)
          rw [ha] at this; simp at this; exact this
        · intro j hj
          rcases Nat.lt_or_eq_of_le hj with hj | rfl
          · exact h2 j hj
          · exact hi
        · intro j n hj hn
          obtain ⟨m, hm, hl⟩ := h3 j hj
          rw [hn] at hm; cases hm
          exact (hat n (List.mem_of_getElem? hn)).1 hl
  · rintro ⟨k, now, h1, h2, h3, h4⟩
    have hkl := (List.getElem?_eq_some_iff.1 h1).1
    refine ((run_cases w f t ts s k (fun j hj => h3 j (by omega)) ?_ now h1).2 (h3 k (Nat.le_refl _)) ?_).1
    · intro j hj
      have hjl : j < ts.length := by omega
      exact ⟨ts[j], List.getElem?_eq_getElem hjl, (hat _ (List.getElem_mem hjl)).2 (h4 j _ hj (List.getElem?_eq_getElem hjl))⟩
    · rw [atLeast_eq hw (hts now (List.mem_of_getElem? h1))]; simpa using h2

/-- Non-vacuity: an inner future that is ready at its third poll. Polled at times 1, 2, 9 with deadline 5 it wins although the deadline has passed;
polled at 1, 6, 9 the timeout wins. -/
example : runTimeout 8 (fun n : Nat => (if n = 2 then some "v" else none, n + 1)) 5 [1, 2, 9] 0 = (.ok "v", 3, 3) := by decide
example : runTimeout 8 (fun n : Nat => (if n = 2 then some "v" else none, n + 1)) 5 [1, 6, 9] 0 = (.timeout, 2, 2) := by decide

end Verif.TimerQueue
