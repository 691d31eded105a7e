import Verif.Race.Own
import Verif.Signal.Model
import Verif.Watch.Model
import Verif.WaitUntil.Model

/-!
# The memory accesses of signal, watch and `wait_until`

As in `Verif.Race.Channel`: the non-atomic memory accesses of every step of the machines of `Verif.Signal`, `Verif.Watch` and
`Verif.WaitUntil`. `seen`, `reader_alive` and the pointers of links are atomics. Every writer, the reader, every waiter and
the notifier are threads of their own.
-/

namespace Verif.Race

variable {L : Type}

/-- The lock of `critical_section`. -/
def lock : Nat := 0

/-- Where everything is accessed inside critical sections there is no data race. -/
theorem raceFree_of_locked {tr : List (MEv L)} (h : ∀ e ∈ tr, ∃ t rd wr, e = csEv lock t rd wr) : RaceFree tr := by
  intro i j a b hij ha hb _
  obtain ⟨t, rd, wr, rfl⟩ := h a (List.mem_of_getElem? ha)
  obtain ⟨t', rd', wr', rfl⟩ := h b (List.mem_of_getElem? hb)
  exact .sw hij ha hb (k := lock) (by simp [csEv]) (by simp [csEv])

end Verif.Race

namespace Verif.Race.Signal

open Verif.Signal Verif.Race

variable {T : Type}

/-- The non-atomic memory of `Signal`, `signal.rs:23-28`. -/
inductive Loc where
  | store
  | waker
deriving DecidableEq, Repr

/-- The memory accesses of one step; the reader is thread 0, writer `i` is thread `i + 1`. -/
def emit (s : St T) : Act T → List (MEv Loc)
  -- `signal.rs:141-147`
  | .write i _ => [csEv lock (i + 1) [] [.store]]
  -- `signal.rs:149`
  | .wake i => [csEv lock (i + 1) [] [.waker]]
  -- `signal.rs:188-204`
  | .tryRead => [csEv lock 0 [] [.store]]
  | .wait | .waitFresh | .poll _ | .cancel => []
  | .go =>
    match s.rx with
    -- `signal.rs:229`
    | .fresh1 _ => [csEv lock 0 [] [.store]]
    -- `signal.rs:213`
    | .poll0 _ _ => [csEv lock 0 [] [.waker]]
    -- `signal.rs:214`
    | .poll1 _ _ => [csEv lock 0 [] [.store]]
    | _ => []

/-- The memory events of an execution. -/
def trace (s : St T) : List (Act T) → List (MEv Loc)
  | [] => []
  | a :: as =>
    match step s a with
    | none => []
    | some (s1, _) => emit s a ++ trace s1 as

theorem emit_locked (s : St T) (a : Act T) : ∀ e ∈ emit s a, ∃ t rd wr, e = csEv lock t rd wr := by
  intro e he
  cases a <;> simp only [emit] at he
  case go => split at he <;> simp at he <;> exact ⟨_, _, _, he⟩
  all_goals simp at he
  all_goals exact ⟨_, _, _, he⟩

theorem trace_locked : ∀ (as : List (Act T)) (s : St T), ∀ e ∈ trace s as, ∃ t rd wr, e = csEv lock t rd wr
  | [], s, e, he => by simp [trace] at he
  | a :: as, s, e, he => by
    simp only [trace] at he
    split at he
    · simp at he
    · rcases List.mem_append.1 he with h | h
      · exact emit_locked s a e h
      · exact trace_locked as _ e h

/-- C111. A signal has no data race, whatever its writers and its reader do. -/
theorem C111_signal_race_free (as : List (Act T)) : RaceFree (trace (init : St T) as) := raceFree_of_locked (trace_locked as _)

example : trace (init : St Nat) [.wait, .poll 7, .go, .write 0 (some 5), .wake 0, .go] =
    [csEv lock 0 [] [.waker], csEv lock 1 [] [.store], csEv lock 1 [] [.waker], csEv lock 0 [] [.store]] := by decide +kernel

end Verif.Race.Signal

namespace Verif.Race.Watch

open Verif.Watch Verif.Race

variable {T : Type}

/-- The non-atomic memory of `Watch`, `signal.rs:23-28`; `seen` is an atomic. -/
inductive Loc where
  | store
  | waker
deriving DecidableEq, Repr

/-- The memory accesses of one step; the reader is thread 0, writer `i` is thread `i + 1`. -/
def emit (s : St T) : Act T → List (MEv Loc)
  -- `signal.rs:141-147`
  | .write i _ => [csEv lock (i + 1) [] [.store]]
  -- `signal.rs:149`
  | .wake i => [csEv lock (i + 1) [] [.waker]]
  -- `watch.rs:146-150`
  | .tryGet => [csEv lock 0 [.store] []]
  | .changed | .poll _ | .cancel => []
  | .go =>
    match s.rx with
    -- `watch.rs:181`
    | .c0 _ => [csEv lock 0 [] [.waker]]
    -- `watch.rs:187`, `watch.rs:146-150`
    | .c2 _ => [csEv lock 0 [.store] []]
    -- `watch.rs:183`, `watch.rs:190`: atomics
    | _ => []

/-- The memory events of an execution. -/
def trace (s : St T) : List (Act T) → List (MEv Loc)
  | [] => []
  | a :: as =>
    match step s a with
    | none => []
    | some (s1, _) => emit s a ++ trace s1 as

theorem emit_locked (s : St T) (a : Act T) : ∀ e ∈ emit s a, ∃ t rd wr, e = csEv lock t rd wr := by
  intro e he
  cases a <;> simp only [emit] at he
  case go => split at he <;> simp at he <;> exact ⟨_, _, _, he⟩
  all_goals simp at he
  all_goals exact ⟨_, _, _, he⟩

theorem trace_locked : ∀ (as : List (Act T)) (s : St T), ∀ e ∈ trace s as, ∃ t rd wr, e = csEv lock t rd wr
  | [], s, e, he => by simp [trace] at he
  | a :: as, s, e, he => by
    simp only [trace] at he
    split at he
    · simp at he
    · rcases List.mem_append.1 he with h | h
      · exact emit_locked s a e h
      · exact trace_locked as _ e h

/-- C111. A watch has no data race, whatever its writers and its reader do. -/
theorem C111_watch_race_free (as : List (Act T)) : RaceFree (trace (init : St T) as) := raceFree_of_locked (trace_locked as _)

example : trace (init : St Nat) [.write 0 5, .changed, .poll 7, .go, .wake 0, .go, .go, .go] =
    [csEv lock 1 [] [.store], csEv lock 0 [] [.waker], csEv lock 1 [] [.waker], csEv lock 0 [.store] []] := by decide +kernel

end Verif.Race.Watch

namespace Verif.Race.WaitUntil

open Verif.WaitUntil Verif.Race

/-- The non-atomic memory: the link of the future of each waiter, `wait_queue.rs:230`. -/
inductive Loc where
  | link (i : Nat)
deriving DecidableEq, Repr

/-- Does the future of waiter `i` have a link (in the list or popped)? -/
def hasLink (s : St) (i : Nat) : Bool :=
  match s.pc i with
  | .pend _ => true
  | _ => false

/-- The links in the list. -/
def listed (s : St) : List Loc := s.q.map (fun x => .link x.1)

/-- `link_guard.execute()`, `wait_queue.rs:233-238`: the option is read, a link is removed in a critical section, the option
is set to `None`. -/
def clean (s : St) (i : Nat) : List (MEv Loc) :=
  naEv (i + 1) [.link i] [] ::
    ((if hasLink s i then [csEv lock (i + 1) (.link i :: listed s) []] else []) ++ [naEv (i + 1) [] [.link i]])

/-- The memory accesses of one step; the notifier is thread 0, waiter `i` is thread `i + 1`. The condition is the business of
the closure and not recorded. -/
def emit (s : St) : Act → List (MEv Loc)
  -- `wait_queue.rs:230`
  | .start i => [naEv (i + 1) [] [.link i]]
  -- `wait_queue.rs:244`
  | .poll i _ => clean s i
  | .go i =>
    match s.pc i with
    -- `wait_queue.rs:255-266`: the new link is stored outside of the critical section of `push`
    | .checked _ => [naEv (i + 1) [] [.link i], csEv lock (i + 1) (.link i :: listed s) []]
    | _ => []
  | .drop i => clean s i
  | .setCond _ => []
  -- `wait_queue.rs:48-80`
  | .notify => [csEv lock 0 (listed s) []]

/-- The memory events of an execution. -/
def trace (s : St) : List Act → List (MEv Loc)
  | [] => []
  | a :: as =>
    match step s a with
    | none => []
    | some (s1, _) => emit s a ++ trace s1 as

/-- Who may access what. -/
def mode (s : St) : Loc → Mode
  | .link i => if hasLink s i then .shw (i + 1) else .own (i + 1)

/-- only pending futures are in the list -/
def Listed (s : St) : Prop := ∀ x ∈ s.q, hasLink s x.1 = true

theorem hasLink_set_ne {s : St} {i j : Nat} {p : Pc} {q} (h : j ≠ i) :
    hasLink { s with q := q, pc := Verif.WaitUntil.set s.pc i p } j = hasLink s j := by
  simp [hasLink, Verif.WaitUntil.set, h]

theorem listed_step {s s' : St} {a : Act} {e} (h : Listed s) (hs : step s a = some (s', e)) : Listed s' := by
  intro x hx
  have hun : ∀ i, x ∈ unlink s.q i → x.1 ≠ i ∧ hasLink s x.1 = true := by
    intro i hi
    simp [unlink] at hi
    exact ⟨hi.2, h x hi.1⟩
  cases a with
  | start i =>
    simp only [step] at hs; split at hs <;> cases hs
    rename_i hp
    have h1 := h x hx
    have hne : x.1 ≠ i := by intro he; rw [he] at h1; simp [hasLink, hp] at h1
    simpa [hasLink, Verif.WaitUntil.set, hne] using h1
  | poll i w =>
    simp only [step] at hs
    split at hs <;> cases hs
    all_goals
      obtain ⟨h1, h2⟩ := hun i hx
      simpa [hasLink, Verif.WaitUntil.set, h1] using h2
  | go i =>
    simp only [step] at hs
    split at hs
    · rename_i w hp
      split at hs <;> cases hs
      all_goals
        have h1 := h x hx
        have hne : x.1 ≠ i := by intro he; rw [he] at h1; simp [hasLink, hp] at h1
        simpa [hasLink, Verif.WaitUntil.set, hne] using h1
    · rename_i w hp
      cases hs
      rcases List.mem_append.1 hx with hx | hx
      · have h1 := h x hx
        have hne : x.1 ≠ i := by intro he; rw [he] at h1; simp [hasLink, hp] at h1
        simpa [hasLink, Verif.WaitUntil.set, hne] using h1
      · simp at hx; subst hx; simp [hasLink, Verif.WaitUntil.set]
    · cases hs
  | drop i =>
    simp only [step] at hs
    split at hs <;> cases hs
    all_goals
      obtain ⟨h1, h2⟩ := hun i hx
      simpa [hasLink, Verif.WaitUntil.set, h1] using h2
  | setCond b => simp only [step] at hs; cases hs; exact h x hx
  | notify =>
    simp only [step] at hs
    split at hs <;> cases hs
    · exact h x hx
    · rename_i hq; exact h x (by rw [hq]; exact List.mem_cons_of_mem _ hx)

theorem mem_listed {s : St} (h : Listed s) {l : Loc} (hl : l ∈ listed s) : ∃ u, mode s l = .shw u := by
  obtain ⟨x, hx, rfl⟩ := List.mem_map.1 hl
  exact ⟨x.1 + 1, by simp [mode, h x hx]⟩

/-- the own link, not in the list -/
theorem disc_own {s : St} {tr : List (MEv Loc)} {i : Nat} {rd wr : List Loc} (hd : Disc tr lock (mode s))
    (hl : hasLink s i = false) (hw : ∀ l ∈ rd ++ wr, l = .link i) : Disc (tr ++ [naEv (i + 1) rd wr]) lock (mode s) := by
  refine disc_na hd (fun l => .inl ⟨rfl, ?_⟩)
  by_cases h : l = .link i
  · subst h; exact .inl (by simp [mode, hl])
  · exact .inr ⟨fun h1 => h (hw l (by simp [h1])), .inl (fun h1 => h (hw l (by simp [h1])))⟩

theorem disc_clean {s s' : St} {tr : List (MEv Loc)} {i : Nat} (h : Listed s) (hd : Disc tr lock (mode s))
    (hne : ∀ j, j ≠ i → hasLink s' j = hasLink s j) (hi : hasLink s' i = false) :
    Disc (tr ++ clean s i) lock (mode s') := by
  unfold clean
  cases hl : hasLink s i with
  | false =>
    have hm : mode s' = mode s := by
      funext l; cases l with
      | link j => by_cases hj : j = i
                  · subst hj; simp [mode, hl, hi]
                  · simp [mode, hne j hj]
    rw [hm]
    simp only [Bool.false_eq_true, if_false, List.nil_append]
    have h1 := disc_own (rd := [.link i]) (wr := []) hd hl (by simp)
    have h2 := disc_own (rd := []) (wr := [.link i]) h1 hl (by simp)
    simpa using h2
  | true =>
    simp only [if_true]
    have h1 : Disc (tr ++ [naEv (i + 1) [.link i] []]) lock (fun l => if l = .link i then .looked (i + 1) else mode s l) := by
      refine disc_na hd (fun l => ?_)
      by_cases h : l = .link i
      · subst h; exact .inr ⟨by simp [mode, hl], by simp, by simp⟩
      · exact .inl ⟨by simp [h], .inr ⟨by simp, .inl (by simpa using h)⟩⟩
    have h2 : Disc (tr ++ [naEv (i + 1) [.link i] []] ++ [csEv lock (i + 1) (.link i :: listed s) []]) lock (mode s') := by
      refine disc_cs h1 (fun l => ?_)
      by_cases hli : l = .link i
      · subst hli
        exact .inl ⟨by simp [Mode.near], by simp [mode, hi, Mode.near], by simp [mode, hi]⟩
      · refine .inr ⟨?_, by simp, fun h3 => ?_⟩
        · simp only [hli, if_false]
          cases l with
          | link j => simp only [mode, hne j (by rintro rfl; exact hli rfl)]
        · rcases List.mem_cons.1 h3 with h3 | h3
          · exact absurd h3 hli
          · simpa only [hli, if_false] using mem_listed h h3
    have h3 := disc_own (rd := []) (wr := [.link i]) h2 hi (by simp)
    simpa using h3

theorem disc_step {s s' : St} {a : Act} {e} {tr : List (MEv Loc)} (h : Listed s) (hd : Disc tr lock (mode s))
    (hs : step s a = some (s', e)) : Disc (tr ++ emit s a) lock (mode s') := by
  have hcong : ∀ s2 : St, (∀ j, hasLink s2 j = hasLink s j) → mode s2 = mode s := by
    intro s2 h2; funext l; cases l with
    | link j => simp [mode, h2]
  cases a with
  | start i =>
    simp only [step] at hs; split at hs <;> cases hs
    rename_i hp
    have hl : hasLink s i = false := by simp [hasLink, hp]
    rw [hcong _ (fun j => by by_cases hj : j = i <;> simp [hasLink, Verif.WaitUntil.set, hj, hp])]
    exact disc_own hd hl (by simp)
  | poll i w =>
    simp only [step] at hs
    split at hs <;> cases hs
    all_goals exact disc_clean h hd (fun j hj => hasLink_set_ne hj) (by simp [hasLink, Verif.WaitUntil.set])
  | go i =>
    simp only [step] at hs
    simp only [emit]
    split at hs
    · rename_i w hp
      simp only [hp, List.append_nil]
      split at hs <;> cases hs
      all_goals
        rw [hcong _ (fun j => by by_cases hj : j = i <;> simp [hasLink, Verif.WaitUntil.set, hj, hp])]
        exact hd
    · rename_i w hp
      cases hs
      simp only [hp]
      have hl : hasLink s i = false := by simp [hasLink, hp]
      have h1 := disc_own (rd := []) (wr := [.link i]) hd hl (by simp)
      rw [show ∀ (a b : MEv Loc), tr ++ [a, b] = tr ++ [a] ++ [b] by simp]
      refine disc_cs h1 (fun l => ?_)
      by_cases hli : l = .link i
      · subst hli
        exact .inl ⟨by simp [mode, hl, Mode.near], by simp [mode, hasLink, Verif.WaitUntil.set, Mode.near],
          by simp [mode, hasLink, Verif.WaitUntil.set]⟩
      · refine .inr ⟨?_, by simp, fun h3 => ?_⟩
        · cases l with
          | link j =>
            have hj : j ≠ i := by rintro rfl; exact hli rfl
            simp only [mode, hasLink_set_ne hj]
        · rcases List.mem_cons.1 h3 with h3 | h3
          · exact absurd h3 hli
          · exact mem_listed h h3
    · cases hs
  | drop i =>
    simp only [step] at hs
    split at hs <;> cases hs
    all_goals exact disc_clean h hd (fun j hj => hasLink_set_ne hj) (by simp [hasLink, Verif.WaitUntil.set])
  | setCond b =>
    simp only [step] at hs
    cases hs
    have hm : mode { s with cond := b } = mode s := hcong _ (fun j => rfl)
    rw [hm]
    simpa [emit] using hd
  | notify =>
    have key : ∀ q, Disc (tr ++ [csEv lock 0 (listed s) []]) lock (mode { s with q := q }) := by
      intro q
      have : mode { s with q := q } = mode s := hcong _ (fun j => rfl)
      rw [this]
      exact disc_cs hd (fun l => .inr ⟨rfl, by simp, fun h3 => mem_listed h h3⟩)
    simp only [step] at hs
    split at hs <;> cases hs
    · exact key s.q
    · exact key _

theorem disc_trace : ∀ (as : List Act) (s : St) (tr : List (MEv Loc)), Listed s → Disc tr lock (mode s) →
    RaceFree (tr ++ trace s as)
  | [], s, tr, _, hd => by simpa [trace] using hd.rf
  | a :: as, s, tr, h, hd => by
    simp only [trace]
    split
    · simpa using hd.rf
    · rename_i s1 e hs
      rw [← List.append_assoc]
      exact disc_trace as s1 _ (listed_step h hs) (disc_step h hd hs)

/-- C111. `wait_until` has no data race, whatever the waiters and the notifier do. -/
theorem C111_wait_until_race_free (as : List Act) : RaceFree (trace init as) := by
  simpa using disc_trace as init [] (by intro x hx; simp [init] at hx) (disc_nil _ _)

example : trace init [.start 0, .poll 0 7, .go 0, .go 0, .notify, .drop 0] =
    [naEv 1 [] [.link 0], naEv 1 [.link 0] [], naEv 1 [] [.link 0], naEv 1 [] [.link 0], csEv lock 1 [.link 0] [],
     csEv lock 0 [.link 0] [], naEv 1 [.link 0] [], csEv lock 1 [.link 0] [], naEv 1 [] [.link 0]] := by decide +kernel

end Verif.Race.WaitUntil
