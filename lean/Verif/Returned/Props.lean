import Verif.Channel.Props3
import Verif.Signal.Props
import Verif.Watch.Props

/-! # C94: an operation that has returned has woken the waiting task

The theorems C05, C20 and C22 allow that the waiting task has not been woken as long as *some* writer or sender is still on its way to the wake. Here: when one operation returns, the waker that was registered has been called, whatever other
operations are suspended half-way. In every theorem the history up to and including the return is `a ++ .reg w :: b`, without another registration in `b`: `w` is the latest registered waker, and what happened since is `b`. -/

namespace Verif.Channel

variable {T : Type}

theorem regState_since {w : Nat} {b : List (Ev T)} : ∀ {r : Nat × Bool}, r = (w, false) → (∀ w', .reg w' ∉ b) → .wokeR w ∉ b → regState (some r) b = some (w, false) := by
  induction b with
  | nil => intro r hr _ _; rw [hr]; rfl
  | cons x b ih =>
    intro r hr h1 h2
    subst hr
    have h1' : ∀ w', .reg w' ∉ b := fun w' h => h1 w' (List.mem_cons_of_mem _ h)
    have h2' : .wokeR w ∉ b := fun h => h2 (List.mem_cons_of_mem _ h)
    cases x with
    | reg w' => exact absurd (List.mem_cons_self ..) (h1 w')
    | wokeR w' =>
      have : w ≠ w' := by rintro rfl; exact h2 (List.mem_cons_self ..)
      simp only [regState]
      exact ih (by simp [this]) h1' h2'
    | _ => simp only [regState]; exact ih rfl h1' h2'

theorem cell_tr {n : Nat} {s s' : St T} {tr e : List (Ev T)} (ih : ∀ w, regState none tr = some (w, false) → s.rwk = some w) (hs : Tr n s s' e) : ∀ w, regState none (tr ++ e) = some (w, false) → s'.rwk = some w := by
  intro w
  rw [regState_append]
  generalize regState none tr = r at ih
  cases hs with
  | pushedS i w' hi hw => rcases r with _ | ⟨w0, b⟩ <;> simp only [regState] <;> intro h <;> simp at h; obtain ⟨rfl, rfl, h⟩ := h; have := ih _ rfl; rw [hw] at this; exact absurd (Option.some.inj this).symm h
  | dropWS i w' hi hw => rcases r with _ | ⟨w0, b⟩ <;> simp only [regState] <;> intro h <;> simp at h; obtain ⟨rfl, rfl, h⟩ := h; have := ih _ rfl; rw [hw] at this; exact absurd (Option.some.inj this).symm h
  | regSame w' hr hw => intro h; rcases r with _ | ⟨w0, b⟩ <;> simp only [regState] at h <;> cases h <;> exact hw
  | regNew w' hr hw => intro h; rcases r with _ | ⟨w0, b⟩ <;> simp only [regState] at h <;> cases h <;> rfl
  | regRepl w' w2 hr hw hne => intro h; rcases r with _ | ⟨w0, b⟩ <;> simp only [regState] at h <;> cases h <;> rfl
  | drop1None i v k hi hx => rw [regState_finEv]; exact ih w
  | drop1Free i v k x hi hx hq => rw [regState_finEv]; exact ih w
  | drop1Bad i v k x j q hi hx hq hl => rw [regState_finEv]; exact ih w
  | drop1Grant i v k x j q l hi hx hq hl => rw [regState_finEv']; exact ih w
  | _ => rcases r with _ | ⟨w0, b⟩ <;> simpa [regState] using ih w

/-- a registered waker that has not been called is still stored -/
theorem cell_kept {n : Nat} {s : St T} {tr : List (Ev T)} (h : Reach n s tr) : ∀ w, regState none tr = some (w, false) → s.rwk = some w :=
  (reach_induct (P := fun s tr => ∀ w, regState none tr = some (w, false) → s.rwk = some w) (by intro w hw; cases hw) (fun _ _ _ _ _ ih hs => cell_tr ih hs) h).2

theorem wake_gone {n i : Nat} {s s' : St T} {e : List (Ev T)} (hs : step n s (.go i) = some (s', e)) (hret : .sendOk i ∈ e ∨ s'.snd i = .absent) : s'.rwk = none := by
  simp only [step, goS] at hs
  cases hp : s.snd i <;> simp only [hp] at hs
  case pushed => cases hk : s.rwk <;> simp only [wakeR, hk] at hs <;> cases hs <;> first | rfl | exact hk
  case dropW => cases hk : s.rwk <;> simp only [wakeR, hk] at hs <;> cases hs <;> first | rfl | exact hk
  case drop1 v k =>
    exfalso
    cases k <;> cases hl : s.sl i <;> simp only [hl, returnFreeSlot] at hs <;> (repeat' split at hs) <;> cases hs <;> simp [set] at hret
  all_goals exfalso; (repeat' split at hs) <;> cases hs <;> simp [set] at hret

/-- **C94** (`Channel`) When a `send` or `try_send` returns `Ok`, or when the drop of the last `Sender` has run to its end, the waker registered by the receiver has been called since it was registered: it does not matter how many values were queued
before, nor which other senders are in the middle of an operation. -/
theorem C94_channel {n i w : Nat} {s s' : St T} {tr e a b : List (Ev T)} (h : Reach n s tr) (hs : step n s (.go i) = some (s', e))
    (hret : .sendOk i ∈ e ∨ s'.snd i = .absent) (hb : tr ++ e = a ++ .reg w :: b) (hlast : ∀ w', .reg w' ∉ b) : .wokeR w ∈ b := by
  have hc := cell_kept (reach_step h hs) w
  rw [hb, regState_append] at hc
  refine Classical.byContradiction fun hno => ?_
  have : regState (regState none a) (.reg w :: b) = some (w, false) := by
    cases regState none a <;> simp only [regState] <;> exact regState_since rfl hlast hno
  have := hc this
  rw [wake_gone hs hret] at this
  cases this

end Verif.Channel

namespace Verif.Signal

variable {T : Type}

theorem regState_since {w : Nat} {b : List (Ev T)} : ∀ {r : Nat × Bool}, r = (w, false) → (∀ w', .reg w' ∉ b) → .woke w ∉ b → regState (some r) b = some (w, false) := by
  induction b with
  | nil => intro r hr _ _; rw [hr]; rfl
  | cons x b ih =>
    intro r hr h1 h2
    subst hr
    have h1' : ∀ w', .reg w' ∉ b := fun w' h => h1 w' (List.mem_cons_of_mem _ h)
    have h2' : .woke w ∉ b := fun h => h2 (List.mem_cons_of_mem _ h)
    cases x with
    | reg w' => exact absurd (List.mem_cons_self ..) (h1 w')
    | woke w' =>
      have : w ≠ w' := by rintro rfl; exact h2 (List.mem_cons_self ..)
      simp only [regState]
      exact ih (by simp [this]) h1' h2'
    | _ => simp only [regState]; exact ih rfl h1' h2'

theorem reach_step {s s' : St T} {tr e : List (Ev T)} {a : Act T} (h : Reach s tr) (hs : step s a = some (s', e)) : Reach s' (tr ++ e) := by
  obtain ⟨as, h⟩ := h
  refine ⟨as ++ [a], ?_⟩
  have : ∀ (as : List (Act T)) (s0 : St T) (tr : List (Ev T)), exec s0 as = some (s, tr) → exec s0 (as ++ [a]) = some (s', tr ++ e) := by
    intro as
    induction as with
    | nil => intro s0 tr h; cases h; simp [exec, hs]
    | cons x as ih =>
      intro s0 tr h
      simp only [exec, List.cons_append] at h ⊢
      cases hx : step s0 x with
      | none => rw [hx] at h; cases h
      | some p =>
        obtain ⟨s1, e1⟩ := p
        rw [hx] at h
        simp only at h ⊢
        cases hy : exec s1 as with
        | none => rw [hy] at h; cases h
        | some q =>
          obtain ⟨s2, es⟩ := q
          rw [hy] at h
          cases h
          rw [ih s1 es hy]
          simp
  exact this as _ _ h

theorem wake_gone {i : Nat} {s s' : St T} {e : List (Ev T)} (hs : step s (.wake i) = some (s', e)) : s'.rwk = none := by
  simp only [step] at hs
  split at hs
  · cases hk : s.rwk <;> simp only [hk] at hs <;> cases hs <;> first | rfl | exact hk
  · cases hs

/-- **C94** (`Signal`) When a `write` or `clear` returns (its last step is the wake), the waker registered by the reader has been called since it was registered, whichever other writers are in the middle of an operation. -/
theorem C94_signal {i w : Nat} {s s' : St T} {tr e a b : List (Ev T)} (h : Reach s tr) (hs : step s (.wake i) = some (s', e))
    (hb : tr ++ e = a ++ .reg w :: b) (hlast : ∀ w', .reg w' ∉ b) : .woke w ∈ b := by
  have hc := ((invW (reach_step h hs)).cell w).2
  rw [hb, regState_append] at hc
  refine Classical.byContradiction fun hno => ?_
  have : regState (regState none a) (.reg w :: b) = some (w, false) := by
    cases regState none a <;> simp only [regState] <;> exact regState_since rfl hlast hno
  have := hc this
  rw [wake_gone hs] at this
  cases this

end Verif.Signal

namespace Verif.Watch

variable {T : Type}

theorem regState_since {w : Nat} {b : List (Ev T)} : ∀ {r : Nat × Bool}, r = (w, false) → (∀ w', .reg w' ∉ b) → .woke w ∉ b → regState (some r) b = some (w, false) := by
  induction b with
  | nil => intro r hr _ _; rw [hr]; rfl
  | cons x b ih =>
    intro r hr h1 h2
    subst hr
    have h1' : ∀ w', .reg w' ∉ b := fun w' h => h1 w' (List.mem_cons_of_mem _ h)
    have h2' : .woke w ∉ b := fun h => h2 (List.mem_cons_of_mem _ h)
    cases x with
    | reg w' => exact absurd (List.mem_cons_self ..) (h1 w')
    | woke w' =>
      have : w ≠ w' := by rintro rfl; exact h2 (List.mem_cons_self ..)
      simp only [regState]
      exact ih (by simp [this]) h1' h2'
    | _ => simp only [regState]; exact ih rfl h1' h2'

theorem cell_kept {s : St T} {tr : List (Ev T)} (h : Reach s tr) : ∀ w, regState none tr = some (w, false) → s.rwk = some w := by
  refine reach_induct (P := fun s tr => ∀ w, regState none tr = some (w, false) → s.rwk = some w) (by intro w hw; cases hw) ?_ h
  intro s tr a s' e ih hs w
  rw [regState_append]
  generalize regState none tr = r at ih
  cases tr_of_step hs <;> rcases r with _ | ⟨w0, b⟩ <;> simp_all [regState] <;> grind

theorem wake_gone {i : Nat} {s s' : St T} {e : List (Ev T)} (hs : step s (.wake i) = some (s', e)) : s'.rwk = none := by
  simp only [step] at hs
  split at hs
  · cases hk : s.rwk <;> simp only [hk] at hs <;> cases hs <;> first | rfl | exact hk
  · cases hs

/-- **C94** (`Watch`) When a `write` returns (its last step is the wake), the waker registered by the reader has been called since it was registered, whichever other writers are in the middle of an operation. -/
theorem C94_watch {i w : Nat} {s s' : St T} {tr e a b : List (Ev T)} (h : Reach s tr) (hs : step s (.wake i) = some (s', e))
    (hb : tr ++ e = a ++ .reg w :: b) (hlast : ∀ w', .reg w' ∉ b) : .woke w ∈ b := by
  have hc := cell_kept (h.step hs) w
  rw [hb, regState_append] at hc
  refine Classical.byContradiction fun hno => ?_
  have : regState (regState none a) (.reg w :: b) = some (w, false) := by
    cases regState none a <;> simp only [regState] <;> exact regState_since rfl hlast hno
  have := hc this
  rw [wake_gone hs] at this
  cases this

end Verif.Watch

/-! ## Examples: two senders (writers), of which the first is suspended before its wake; the second returns and has woken the reader -/

namespace Verif.Returned

example : ∃ s tr e s', Channel.Reach 2 s tr ∧ s.snd 0 = .pushed ∧ Channel.step 2 s (.go 1) = some (s', e) ∧ tr ++ e = ([] : List (Channel.Ev Nat)) ++ .reg 7 :: [.recvPending, .start 0 10, .enq 0 10, .start 1 11, .enq 1 11, .wokeR 7, .sendOk 1] := by
  refine ⟨_, _, _, _, ⟨[.clone 0 1, .pollRecv 7, .goR, .goR, .goR, .startTry 0 10, .go 0, .go 0, .go 0, .go 0, .go 0, .startTry 1 11, .go 1, .go 1, .go 1, .go 1, .go 1], rfl⟩, ?_, rfl, rfl⟩
  rfl

example : ∃ s tr e s', Signal.Reach s tr ∧ s.wr 0 = true ∧ Signal.step s (.wake 1) = some (s', e) ∧ tr ++ e = ([] : List (Signal.Ev Nat)) ++ .reg 7 :: [.read none, .stored 10, .stored 11, .woke 7] := by
  refine ⟨_, _, _, _, ⟨[.wait, .poll 7, .go, .go, .write 0 (some 10), .write 1 (some 11)], rfl⟩, ?_, rfl, rfl⟩
  rfl

example : ∃ s tr e s', Watch.Reach s tr ∧ s.wr 0 = true ∧ Watch.step s (.wake 1) = some (s', e) ∧ tr ++ e = ([] : List (Watch.Ev Nat)) ++ .reg 7 :: [.copied none, .stored 10, .stored 11, .woke 7] := by
  refine ⟨_, _, _, _, ⟨[.changed, .poll 7, .go, .go, .go, .write 0 10, .write 1 11], rfl⟩, ?_, rfl, rfl⟩
  rfl

end Verif.Returned
