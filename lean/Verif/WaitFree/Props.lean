import Verif.Signal.Model
import Verif.Watch.Model
import Verif.WaitUntil.Model
import Verif.Arbiter.Model
import Verif.TimerQueue.Model

/-!
# Operations of the other primitives are wait-free (C89)

As C73 for the channel: an operation in progress finishes after a bounded number of its own steps (critical sections, atomic accesses), whatever the others do in
between, and is never blocked in the middle. For `Signal`, `Watch`, `wait_until`, `Arbiter` and `Delay`.
-/

namespace Verif.WaitFree

/-! ## Counting the steps of one operation in any kind of execution -/

/-- A sequence of actions that `step` performs one after the other. -/
inductive Runs {σ α ε : Type} (step : σ → α → Option (σ × List ε)) : σ → List α → σ → Prop where
  | nil (s : σ) : Runs step s [] s
  | cons {s s1 s2 : σ} {a : α} {as : List α} {e : List ε} : step s a = some (s1, e) → Runs step s1 as s2 → Runs step s (a :: as) s2

theorem runs_of_exec {σ α ε : Type} {step : σ → α → Option (σ × List ε)} {exec : σ → List α → Option (σ × List ε)}
    (h0 : ∀ s s' e, exec s [] = some (s', e) → s' = s)
    (h1 : ∀ s a as s' e, exec s (a :: as) = some (s', e) → ∃ s1 e1 e2, step s a = some (s1, e1) ∧ exec s1 as = some (s', e2)) :
    ∀ (as : List α) (s s' : σ) (e : List ε), exec s as = some (s', e) → Runs step s as s' := by
  intro as
  induction as with
  | nil => intro s s' e h; rw [h0 _ _ _ h]; exact .nil s
  | cons a as ih =>
    intro s s' e h
    obtain ⟨s1, e1, e2, hs, he⟩ := h1 _ _ _ _ _ h
    exact .cons hs (ih _ _ _ he)

/-- If the rank goes down with every own step and nothing else changes it, the number of own steps is bounded by it. -/
theorem bounded {σ α ε : Type} {step : σ → α → Option (σ × List ε)} (rank : σ → Nat) (own begins : α → Bool)
    (hown : ∀ s a s' e, step s a = some (s', e) → own a = true → rank s' < rank s)
    (hoth : ∀ s a s' e, step s a = some (s', e) → own a = false → begins a = false → rank s' = rank s)
    {s s' : σ} {as : List α} (h : Runs step s as s') (hb : ∀ a ∈ as, begins a = false) : as.countP own + rank s' ≤ rank s := by
  induction h with
  | nil s => simp
  | @cons s s1 s2 a as e hs _ ih =>
    have := ih fun a ha => hb a (List.mem_cons_of_mem _ ha)
    rw [List.countP_cons]
    cases ho : own a with
    | true => have := hown _ _ _ _ hs ho; simp; omega
    | false => have := hoth _ _ _ _ hs ho (hb a List.mem_cons_self); simp; omega

/-! ## Signal -/

section
open Verif.Signal
variable {T : Type}

/-- `wait` or `wait_fresh` is being polled. -/
def signalPolling : Signal.Rx → Bool
  | .fresh1 _ | .poll0 _ _ | .poll1 _ _ => true
  | _ => false

/-- The action is the beginning of an operation, or of a poll, of the reader. -/
def signalBegins : Signal.Act T → Bool
  | .tryRead | .wait | .waitFresh | .poll _ | .cancel => true
  | _ => false

def signalOwn : Signal.Act T → Bool
  | .go => true
  | _ => false

def signalRank : Signal.Rx → Nat
  | .fresh1 _ => 3
  | .poll0 _ _ => 2
  | .poll1 _ _ => 1
  | _ => 0

/-- **C89** A poll of `wait` or `wait_fresh` goes through at most three steps of its own, whatever the writers do in between, and has then returned. -/
theorem C89_signal_poll_bounded {s s' : Signal.St T} {as : List (Signal.Act T)} {e : List (Signal.Ev T)} (he : Signal.exec s as = some (s', e))
    (hb : ∀ a ∈ as, signalBegins a = false) : as.countP signalOwn ≤ 3 ∧ (signalPolling s'.rx = true → as.countP signalOwn < 3) := by
  have hr := runs_of_exec (step := Signal.step) (exec := Signal.exec) (fun _ _ _ h => by cases h; rfl) (fun s a as s' e h => by
    simp only [Signal.exec] at h
    split at h
    · cases h
    · split at h
      · cases h
      · cases h; exact ⟨_, _, _, by assumption, by assumption⟩) _ _ _ _ he
  have h := bounded (fun s => signalRank s.rx) signalOwn signalBegins ?_ ?_ hr hb
  · have h3 : signalRank s.rx ≤ 3 := by cases s.rx <;> simp [signalRank]
    refine ⟨by omega, fun hp => ?_⟩
    have : 0 < signalRank s'.rx := by cases hq : s'.rx <;> simp_all [signalRank, signalPolling]
    omega
  · intro s a s' e hs ho
    cases a <;> simp [signalOwn] at ho
    simp only [Signal.step] at hs
    split at hs
    · cases hs; simp_all [signalRank]
    · split at hs
      · split at hs <;> cases hs <;> simp_all [signalRank]
      · cases hs; simp_all [signalRank]
    · split at hs <;> cases hs <;> simp_all [signalRank]
    · cases hs
  · intro s a s' e hs ho hbg
    cases a <;> simp [signalOwn, signalBegins] at ho hbg
    · simp only [Signal.step] at hs
      split at hs <;> cases hs; rfl
    · simp only [Signal.step] at hs
      split at hs
      · split at hs <;> cases hs <;> rfl
      · cases hs

/-- **C89** A poll of `wait` or `wait_fresh` in progress is never blocked. -/
theorem C89_signal_poll_never_stuck {s : Signal.St T} (h : signalPolling s.rx = true) : ∃ s' e, Signal.step s .go = some (s', e) := by
  simp only [Signal.step]
  cases hr : s.rx <;> simp [hr, signalPolling] at h <;> simp only
  · exact ⟨_, _, rfl⟩
  · split
    · split <;> exact ⟨_, _, rfl⟩
    · exact ⟨_, _, rfl⟩
  · split <;> exact ⟨_, _, rfl⟩

/-- **C89** A `write` or `clear` is never blocked, neither at its beginning nor between storing and waking, and ends with the wake: two steps. -/
theorem C89_signal_write_two_steps {s : Signal.St T} {i : Nat} :
    (s.wr i = false → ∀ x, ∃ s1 e, Signal.step s (.write i x) = some (s1, e) ∧ s1.wr i = true) ∧
    (s.wr i = true → ∃ s1 e, Signal.step s (.wake i) = some (s1, e) ∧ s1.wr i = false) := by
  refine ⟨fun h x => ?_, fun h => ?_⟩
  · refine ⟨_, _, by simp only [Signal.step, h]; rfl, by simp [Signal.set]⟩
  · simp only [Signal.step, h, if_true]
    split <;> exact ⟨_, _, rfl, by simp [Signal.set]⟩

/-- Nothing but its own steps changes where a `write` is. -/
theorem C89_signal_write_undisturbed {s s' : Signal.St T} {a : Signal.Act T} {e : List (Signal.Ev T)} {i : Nat} (hs : Signal.step s a = some (s', e))
    (h1 : ∀ x, a ≠ .write i x) (h2 : a ≠ .wake i) : s'.wr i = s.wr i := by
  cases a with
  | write j x =>
    simp only [Signal.step] at hs
    split at hs <;> cases hs
    have : i ≠ j := by rintro rfl; exact h1 _ rfl
    simp [Signal.set, this]
  | wake j =>
    have : i ≠ j := by rintro rfl; exact h2 rfl
    simp only [Signal.step] at hs
    split at hs
    · split at hs <;> cases hs <;> simp [Signal.set, this]
    · cases hs
  | tryRead => simp only [Signal.step] at hs; split at hs <;> cases hs; rfl
  | wait => simp only [Signal.step] at hs; split at hs <;> cases hs; rfl
  | waitFresh => simp only [Signal.step] at hs; split at hs <;> cases hs; rfl
  | poll w => simp only [Signal.step] at hs; split at hs <;> cases hs <;> rfl
  | go =>
    simp only [Signal.step] at hs
    split at hs
    · cases hs; rfl
    · split at hs
      · split at hs <;> cases hs <;> rfl
      · cases hs; rfl
    · split at hs <;> cases hs <;> rfl
    · cases hs
  | cancel => simp only [Signal.step] at hs; split at hs <;> cases hs <;> rfl

/-- Not vacuous: a first poll of `wait_fresh` in three steps, with a write in between. -/
example : Signal.exec (T := Nat) Signal.init [.waitFresh, .poll 7, .go, .write 0 (some 5), .go, .go] =
    some ({ store := none, rwk := some 7, wr := Signal.set (fun _ => false) 0 true, rx := .idle }, [.freshCall, .evicted, .stored 5, .reg 7, .read (some 5), .ret true 5]) := rfl

end

/-! ## Watch -/

section
open Verif.Watch
variable {T : Type}

/-- The reader is inside `try_get` or a poll of `changed`. -/
def watchBusy : Watch.Rx T → Bool
  | .got _ | .c0 _ | .c1 _ | .c2 _ | .c3 _ _ => true
  | _ => false

def watchBegins : Watch.Act T → Bool
  | .tryGet | .changed | .poll _ | .cancel => true
  | _ => false

def watchOwn : Watch.Act T → Bool
  | .go => true
  | _ => false

def watchRank : Watch.Rx T → Nat
  | .c0 _ => 4
  | .c1 _ => 3
  | .c2 _ => 2
  | .c3 _ _ | .got _ => 1
  | _ => 0

/-- **C89** `try_get` and a poll of `changed` go through at most four steps of their own, whatever the writers do in between, and have then returned. -/
theorem C89_watch_bounded {s s' : Watch.St T} {as : List (Watch.Act T)} {e : List (Watch.Ev T)} (he : Watch.exec s as = some (s', e))
    (hb : ∀ a ∈ as, watchBegins a = false) : as.countP watchOwn ≤ 4 ∧ (watchBusy s'.rx = true → as.countP watchOwn < 4) := by
  have hr := runs_of_exec (step := Watch.step) (exec := Watch.exec) (fun _ _ _ h => by cases h; rfl) (fun s a as s' e h => by
    simp only [Watch.exec] at h
    split at h
    · cases h
    · split at h
      · cases h
      · cases h; exact ⟨_, _, _, by assumption, by assumption⟩) _ _ _ _ he
  have h := bounded (fun s => watchRank s.rx) watchOwn watchBegins ?_ ?_ hr hb
  · have h3 : watchRank s.rx ≤ 4 := by cases s.rx <;> simp [watchRank]
    refine ⟨by omega, fun hp => ?_⟩
    have : 0 < watchRank s'.rx := by cases hq : s'.rx <;> simp_all [watchRank, watchBusy]
    omega
  · intro s a s' e hs ho
    cases a <;> simp [watchOwn] at ho
    simp only [Watch.step] at hs
    split at hs
    · cases hs; simp_all [watchRank]
    · split at hs
      · split at hs <;> cases hs <;> simp_all [watchRank]
      · cases hs; simp_all [watchRank]
    · split at hs <;> cases hs <;> simp_all [watchRank]
    · split at hs <;> cases hs <;> simp_all [watchRank]
    · cases hs; simp_all [watchRank]
    · cases hs
  · intro s a s' e hs ho hbg
    cases a <;> simp [watchOwn, watchBegins] at ho hbg
    · simp only [Watch.step] at hs
      split at hs <;> cases hs; rfl
    · simp only [Watch.step] at hs
      split at hs
      · split at hs <;> cases hs <;> rfl
      · cases hs

/-- **C89** `try_get` or a poll of `changed` in progress is never blocked. -/
theorem C89_watch_never_stuck {s : Watch.St T} (h : watchBusy s.rx = true) : ∃ s' e, Watch.step s .go = some (s', e) := by
  simp only [Watch.step]
  cases hr : s.rx <;> simp [hr, watchBusy] at h <;> simp only
  · exact ⟨_, _, rfl⟩
  · split
    · split <;> exact ⟨_, _, rfl⟩
    · exact ⟨_, _, rfl⟩
  · split <;> exact ⟨_, _, rfl⟩
  · split <;> exact ⟨_, _, rfl⟩
  · exact ⟨_, _, rfl⟩

/-- **C89** A `write` of a `Watch` is never blocked and takes two steps. -/
theorem C89_watch_write_two_steps {s : Watch.St T} {i : Nat} :
    (s.wr i = false → ∀ x, ∃ s1 e, Watch.step s (.write i x) = some (s1, e) ∧ s1.wr i = true) ∧
    (s.wr i = true → ∃ s1 e, Watch.step s (.wake i) = some (s1, e) ∧ s1.wr i = false) := by
  refine ⟨fun h x => ?_, fun h => ?_⟩
  · refine ⟨_, _, by simp only [Watch.step, h]; rfl, by simp [Watch.set]⟩
  · simp only [Watch.step, h, if_true]
    split <;> exact ⟨_, _, rfl, by simp [Watch.set]⟩

/-- Not vacuous: a poll of `changed` in four steps, with a write in between. -/
example : ∃ s, Watch.exec (T := Nat) Watch.init [.changed, .poll 7, .go, .go, .write 0 5, .go, .go] =
    some (s, [.reg 7, .stored 5, .copied (some 5), .marked, .ret 5]) := ⟨_, rfl⟩

end

/-! ## `wait_until` -/

section

/-- Waiter `i` is inside a poll. -/
def waitBusy : WaitUntil.Pc → Bool
  | .cleaned _ | .checked _ => true
  | _ => false

def waitBegins (i : Nat) : WaitUntil.Act → Bool
  | .start j | .poll j _ | .drop j => j == i
  | _ => false

def waitOwn (i : Nat) : WaitUntil.Act → Bool
  | .go j => j == i
  | _ => false

def waitRank : WaitUntil.Pc → Nat
  | .cleaned _ => 2
  | .checked _ => 1
  | _ => 0

/-- **C89** A poll of `wait_until`, after it has taken its old link out of the queue, goes through at most two more steps (the test of the condition and the registration),
whatever the other waiters and the notifiers do. -/
theorem C89_wait_until_bounded {s s' : WaitUntil.St} {as : List WaitUntil.Act} {e : List WaitUntil.Ev} (i : Nat) (he : WaitUntil.exec s as = some (s', e))
    (hb : ∀ a ∈ as, waitBegins i a = false) : as.countP (waitOwn i) ≤ 2 ∧ (waitBusy (s'.pc i) = true → as.countP (waitOwn i) < 2) := by
  have hr := runs_of_exec (step := WaitUntil.step) (exec := WaitUntil.exec) (fun _ _ _ h => by cases h; rfl) (fun s a as s' e h => by
    simp only [WaitUntil.exec] at h
    split at h
    · cases h
    · split at h
      · cases h
      · cases h; exact ⟨_, _, _, by assumption, by assumption⟩) _ _ _ _ he
  have h := bounded (fun s => waitRank (s.pc i)) (waitOwn i) (waitBegins i) ?_ ?_ hr hb
  · have h3 : waitRank (s.pc i) ≤ 2 := by cases s.pc i <;> simp [waitRank]
    refine ⟨by omega, fun hp => ?_⟩
    have : 0 < waitRank (s'.pc i) := by cases hq : s'.pc i <;> simp_all [waitRank, waitBusy]
    omega
  · intro s a s' e hs ho
    cases a <;> simp [waitOwn] at ho
    subst ho
    simp only [WaitUntil.step] at hs
    split at hs
    · split at hs <;> cases hs <;> simp_all [waitRank, WaitUntil.set]
    · cases hs; simp_all [waitRank, WaitUntil.set]
    · cases hs
  · intro s a s' e hs ho hbg
    have key : ∀ (j : Nat) (x : WaitUntil.Pc), (j == i) = false → WaitUntil.set s.pc j x i = s.pc i :=
      by
      intro j x h
      have : i ≠ j := by rintro rfl; simp at h
      simp [WaitUntil.set, this]
    cases a with
    | start j => simp only [WaitUntil.step] at hs; split at hs <;> cases hs; simp only [key _ _ hbg]
    | poll j w => simp only [WaitUntil.step] at hs; split at hs <;> cases hs <;> simp only [key _ _ hbg]
    | go j =>
      simp only [WaitUntil.step] at hs
      split at hs
      · split at hs <;> cases hs <;> simp only [key _ _ ho]
      · cases hs; simp only [key _ _ ho]
      · cases hs
    | drop j => simp only [WaitUntil.step] at hs; split at hs <;> cases hs <;> simp only [key _ _ hbg]
    | setCond b => cases hs; rfl
    | notify => simp only [WaitUntil.step] at hs; split at hs <;> cases hs <;> rfl

/-- **C89** A poll of `wait_until` in progress is never blocked, nor is a notifier. -/
theorem C89_wait_until_never_stuck {s : WaitUntil.St} :
    (∀ i, waitBusy (s.pc i) = true → ∃ s' e, WaitUntil.step s (.go i) = some (s', e)) ∧ (∃ s' e, WaitUntil.step s .notify = some (s', e)) := by
  refine ⟨fun i h => ?_, ?_⟩
  · simp only [WaitUntil.step]
    cases hr : s.pc i <;> simp [hr, waitBusy] at h <;> simp only
    · split <;> exact ⟨_, _, rfl⟩
    · exact ⟨_, _, rfl⟩
  · simp only [WaitUntil.step]
    split <;> exact ⟨_, _, rfl⟩

/-- Not vacuous: two steps after the clean-up, with a notifier in between. -/
example : ∃ s, WaitUntil.exec WaitUntil.init [.start 3, .poll 3 7, .go 3, .notify, .go 3] = some (s, [.popNone, .pending 3 7]) := ⟨_, rfl⟩

end

/-! ## Delay -/

section

/-- `Delay` number `i` is in the middle of a poll, or of being dropped. -/
def delayBusy : TimerQueue.Dpc → Bool
  | .p1 _ | .p2 | .d1 => true
  | _ => false

def delayBegins (i : Nat) : TimerQueue.Act → Bool
  | .create j _ | .poll j _ | .drop j => j == i
  | _ => false

def delayOwn (i : Nat) : TimerQueue.Act → Bool
  | .ins j | .pend j | .del j => j == i
  | _ => false

def delayRank : TimerQueue.Dpc → Nat
  | .p1 _ => 2
  | .p2 | .d1 => 1
  | _ => 0

/-- **C89** A poll or the drop of a `Delay`, after its first look at the clock or its own link, goes through at most two more steps (insertion and pending the interrupt;
removal), whatever the timer interrupt and the other futures do. -/
theorem C89_delay_bounded {b : TimerQueue.Cfg} {s s' : TimerQueue.St} {as : List TimerQueue.Act} {e : List TimerQueue.Ev} (i : Nat)
    (he : TimerQueue.exec b s as = some (s', e)) (hb : ∀ a ∈ as, delayBegins i a = false) :
    as.countP (delayOwn i) ≤ 2 ∧ (delayBusy (s'.pc i) = true → as.countP (delayOwn i) < 2) := by
  have hr := runs_of_exec (step := TimerQueue.step b) (exec := TimerQueue.exec b) (fun _ _ _ h => by cases h; rfl) (fun s a as s' e h => by
    simp only [TimerQueue.exec] at h
    split at h
    · cases h
    · split at h
      · cases h
      · cases h; exact ⟨_, _, _, by assumption, by assumption⟩) _ _ _ _ he
  have h := bounded (fun s => delayRank (s.pc i)) (delayOwn i) (delayBegins i) ?_ ?_ hr hb
  · have h3 : delayRank (s.pc i) ≤ 2 := by cases s.pc i <;> simp [delayRank]
    refine ⟨by omega, fun hp => ?_⟩
    have : 0 < delayRank (s'.pc i) := by cases hq : s'.pc i <;> simp_all [delayRank, delayBusy]
    omega
  · intro s a s' e hs ho
    have self : ∀ (x : TimerQueue.Dpc), TimerQueue.set s.pc i x i = x := by intro x; simp [TimerQueue.set]
    cases a <;> simp [delayOwn] at ho <;> subst ho <;> simp only [TimerQueue.step] at hs
    · split at hs
      · split at hs
        · rename_i hp _
          cases hs
          simp only [self, hp]
          split <;> simp [delayRank]
        · cases hs
      · cases hs
    · split at hs
      · rename_i hp; cases hs; simp [self, hp, delayRank]
      · cases hs
    · split at hs
      · rename_i hp; cases hs; simp [self, hp, delayRank]
      · cases hs
  · intro s a s' e hs ho hbg
    have key : ∀ (j : Nat) (x : TimerQueue.Dpc), (j == i) = false → TimerQueue.set s.pc j x i = s.pc i := by
      intro j x h
      have : i ≠ j := by rintro rfl; simp at h
      simp [TimerQueue.set, this]
    cases a with
    | tick m o p => simp only [TimerQueue.step] at hs; split at hs <;> cases hs; rfl
    | create j t => simp only [TimerQueue.step] at hs; split at hs <;> cases hs; simp only [key _ _ hbg]
    | poll j w =>
      simp only [TimerQueue.step] at hs
      split at hs
      · split at hs
        · split at hs
          · cases hs; rfl
          · split at hs <;> cases hs
            · rfl
            · simp only [key _ _ hbg]
        · cases hs
      · cases hs
    | ins j =>
      simp only [TimerQueue.step] at hs
      split at hs
      · split at hs <;> cases hs
        simp only [key _ _ ho]
      · cases hs
    | pend j => simp only [TimerQueue.step] at hs; split at hs <;> cases hs; simp only [key _ _ ho]
    | drop j =>
      simp only [TimerQueue.step] at hs
      split at hs
      · split at hs <;> cases hs <;> simp only [key _ _ hbg]
      · cases hs
    | del j => simp only [TimerQueue.step] at hs; split at hs <;> cases hs; simp only [key _ _ ho]
    | start => simp only [TimerQueue.step] at hs; split at hs <;> (try split at hs) <;> cases hs; rfl
    | hgo =>
      simp only [TimerQueue.step] at hs
      split at hs <;> (try split at hs) <;> (try split at hs) <;> cases hs <;> rfl
    | arm c => simp only [TimerQueue.step] at hs; split at hs <;> (try split at hs) <;> cases hs; rfl

/-- **C89** A poll or drop of a `Delay` in progress is never blocked (insertion: in every state in which the instants are near enough to the clock and to each other to be compared at all,
the environment assumption of the timer queue). -/
theorem C89_delay_never_stuck {b : TimerQueue.Cfg} {s : TimerQueue.St} {i : Nat} :
    (∀ w, s.pc i = .p1 w → TimerQueue.near b.w s.now (s.inst i) = true → (∀ e ∈ s.q, TimerQueue.near b.w e.time (s.inst i) = true) → ∃ s' e, TimerQueue.step b s (.ins i) = some (s', e)) ∧
    (s.pc i = .p2 → ∃ s' e, TimerQueue.step b s (.pend i) = some (s', e)) ∧
    (s.pc i = .d1 → ∃ s' e, TimerQueue.step b s (.del i) = some (s', e)) := by
  refine ⟨fun w h h1 h2 => ?_, fun h => ?_, fun h => ?_⟩
  · refine ⟨_, _, by simp only [TimerQueue.step, h]; rw [if_pos ⟨h1, h2⟩]⟩
  · exact ⟨_, _, by simp only [TimerQueue.step, h]; rfl⟩
  · exact ⟨_, _, by simp only [TimerQueue.step, h]; rfl⟩

/-- Not vacuous: a first poll that inserts and pends the interrupt. -/
example : ∃ s, TimerQueue.exec ⟨32, true, 0⟩ (TimerQueue.init true) [.create 3 10, .poll 3 7, .tick false false false, .ins 3, .pend 3] = some (s, [.inserted 3]) := by
  refine ⟨_, by simp [TimerQueue.exec, TimerQueue.step, TimerQueue.init, TimerQueue.set, TimerQueue.near, TimerQueue.half, TimerQueue.atLeast, Ticks.isAtLeast, TimerQueue.Hpc.inst?, TimerQueue.headUpd]; rfl⟩

end

/-! ## Arbiter -/

section

def arbOwn (i : Nat) : Arbiter.Act → Bool
  | .fin j => j == i
  | _ => false

/-- **C89** Every call on an arbiter is one step, but the last poll of `access()`, which is two: after the poll that finds the arbiter free (or handed over), only the future's own clean-up
can follow, in every reachable state, and it leaves the client with the token. -/
theorem C89_arbiter_access_completes {s : Arbiter.St} {i : Nat} (h : s.pc i = .got) :
    (∃ s' e, Arbiter.step s (.fin i) = some (s', e) ∧ s'.pc i = .token) ∧
    (∀ a s' e, Arbiter.step s a = some (s', e) → arbOwn i a = false → s'.pc i = .got) := by
  refine ⟨⟨_, _, by simp only [Arbiter.step, h]; rfl, by simp [Arbiter.set]⟩, fun a s' e hs ho => ?_⟩
  have key : ∀ (j : Nat) (x : Arbiter.Pc), i ≠ j → Arbiter.set s.pc j x i = .got := by
    intro j x hj; simp [Arbiter.set, hj, h]
  cases a with
  | access j =>
    simp only [Arbiter.step] at hs
    split at hs <;> cases hs
    exact key _ _ (by rintro rfl; simp_all)
  | poll j w =>
    simp only [Arbiter.step] at hs
    split at hs
    · rename_i hj
      have hne : i ≠ j := by rintro rfl; simp_all
      split at hs
      · cases hs; exact key _ _ hne
      · split at hs
        · split at hs <;> cases hs
          · exact key _ _ hne
          · exact h
        · cases hs; exact h
    · cases hs
  | fin j =>
    simp only [Arbiter.step] at hs
    split at hs <;> cases hs
    exact key _ _ (by rintro rfl; simp [arbOwn] at ho)
  | cancel j =>
    simp only [Arbiter.step] at hs
    split at hs <;> cases hs
    exact key _ _ (by rintro rfl; simp_all)
  | tryAccess j =>
    simp only [Arbiter.step] at hs
    split at hs
    · rename_i hj
      have hne : i ≠ j := by rintro rfl; simp_all
      split at hs <;> cases hs
      · exact key _ _ hne
      · exact h
    · cases hs
  | dropTok j =>
    simp only [Arbiter.step] at hs
    split at hs
    · rename_i hj
      have hne : i ≠ j := by rintro rfl; simp_all
      split at hs
      · cases hs; exact key _ _ hne
      · split at hs <;> cases hs
        exact key _ _ hne
    · cases hs

/-- Not vacuous: such a state is reached. -/
example : ∃ s, Arbiter.exec Arbiter.init [.access 3, .poll 3 7] = some (s, [.acquired 3]) ∧ s.pc 3 = .got := ⟨_, rfl, rfl⟩

end

end Verif.WaitFree
