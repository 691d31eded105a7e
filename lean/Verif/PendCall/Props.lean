import Verif.PendCall.Model

/-!
# C114: polling a delay does not enable interrupts
-/

namespace Verif.PendCall

/-! ## Specification -/

/-- The code disabled interrupts: `init`, or the closure of a critical section -/
def Frame.shield : Frame → Bool
  | .init | .cs _ => true
  | _ => false

def Frame.isTask : Frame → Bool
  | .task _ => true
  | _ => false

/-- A task was started while `init` or a critical section was in progress: above a frame that disabled interrupts there is one of a task. -/
def Intruded (s : St) : Prop := ∃ above x below, s.stack = above ++ x :: below ∧ x.shield = true ∧ ∃ y ∈ above, y.isTask = true

/-- The running code is (directly, or in something called) inside `init` or a critical section. -/
def Shielded (s : St) : Prop := ∃ x ∈ s.stack, x.shield = true

/-- The claim: in every execution, no task starts while `init` or a critical section is in progress. -/
def NoIntrusion (b : Backend) : Prop := ∀ as s, exec b start as = some s → ¬ Intruded s

/-! ## Proofs -/

/-- The shape of the stack and of the flag when `pend_interrupt` is only called with interrupts enabled. -/
def Good : List Frame → Bool → Prop
  | [], _ => False
  | [.init], ie => ie = false
  | [.task _], ie => ie = true
  | .task _ :: rest, ie => ie = true ∧ Good rest true
  | .cs was :: rest, ie => ie = false ∧ Good rest was
  | .pend :: rest, ie => ie = false ∧ Good rest true
  | .init :: _ :: _, _ => False

theorem good_no_shield : ∀ (st : List Frame), Good st true → ∀ x ∈ st, x.shield = false
  | [], h => by simp [Good] at h
  | [.init], h => by simp [Good] at h
  | [.task _], _ => by simp [Frame.shield]
  | [.cs w], h => by simp [Good] at h
  | [.pend], h => by simp [Good] at h
  | .task t :: x :: rest, h => by
    simp only [Good] at h
    have := good_no_shield (x :: rest) h.2
    intro y hy
    rcases List.mem_cons.1 hy with rfl | hy
    · rfl
    · exact this y hy
  | .cs w :: x :: rest, h => by simp [Good] at h
  | .pend :: x :: rest, h => by simp [Good] at h
  | .init :: x :: rest, h => by simp [Good] at h

theorem good_not_intruded : ∀ (st : List Frame) (ie : Bool), Good st ie → ∀ above x below, st = above ++ x :: below → x.shield = true → ∀ y ∈ above, y.isTask = false
  | [], ie, h, above, x, below, he, hx => by simp at he
  | f :: rest, ie, h, [], x, below, he, hx => by simp
  | .init :: rest, ie, h, a :: above, x, below, he, hx => by
    simp at he
    cases rest with
    | nil => simp at he
    | cons => simp [Good] at h
  | .task t :: rest, ie, h, a :: above, x, below, he, hx => by
    simp at he
    cases rest with
    | nil => simp at he
    | cons z rest =>
      have h2 : Good (z :: rest) true := by simp only [Good] at h; exact h.2
      have := good_no_shield _ h2 x (by rw [he.2]; simp)
      rw [this] at hx; cases hx
  | .cs w :: rest, ie, h, a :: above, x, below, he, hx => by
    simp at he
    have h2 : Good rest w := by simp only [Good] at h; exact h.2
    intro y hy
    rcases List.mem_cons.1 hy with rfl | hy
    · rw [← he.1]; rfl
    · exact good_not_intruded rest w h2 above x below he.2 hx y hy
  | .pend :: rest, ie, h, a :: above, x, below, he, hx => by
    simp at he
    have h2 : Good rest true := by simp only [Good] at h; exact h.2
    intro y hy
    rcases List.mem_cons.1 hy with rfl | hy
    · rw [← he.1]; rfl
    · exact good_not_intruded rest true h2 above x below he.2 hx y hy

theorem good_step {b : Backend} {s s' : St} {a : Act} (h : Good s.stack s.ie) (hs : step b s a = some s') (hp : a = .pend → b = .call → s.ie = true) : Good s'.stack s'.ie := by
  obtain ⟨st, ie⟩ := s
  cases a with
  | irq t =>
    simp only [step] at hs
    split at hs <;> cases hs
    rename_i hie
    cases st with
    | nil => simp [Good] at h
    | cons => simp_all [Good]
  | ret =>
    simp only [step] at hs
    split at hs
    · split at hs <;> cases hs
      simp only [Good] at h; exact h.2
    · cases hs
  | initDone =>
    simp only [step] at hs
    split at hs <;> cases hs
    simp [Good]
  | csBegin =>
    simp only [step, Option.some.injEq] at hs; subst hs
    simp only [Good, true_and]; exact h
  | csEnd =>
    simp only [step] at hs
    split at hs <;> cases hs
    simp only [Good] at h
    obtain ⟨rfl, h⟩ := h
    simpa using h
  | pend =>
    cases b with
    | pendBit => simp only [step, Option.some.injEq] at hs; subst hs; exact h
    | call =>
      simp only [step, Option.some.injEq] at hs; subst hs
      have := hp rfl rfl
      simp only at this; subst this
      simp only [Good, true_and]; exact h
  | pendEnd =>
    simp only [step] at hs
    split at hs <;> cases hs
    simp only [Good] at h; exact h.2

/-- In an execution, `pend_interrupt` is never called while interrupts are disabled. -/
def PendsEnabled (b : Backend) (s : St) : List Act → Prop
  | [] => True
  | a :: as => (a = .pend → s.ie = true) ∧ ∀ s1, step b s a = some s1 → PendsEnabled b s1 as

theorem good_exec {b : Backend} : ∀ (as : List Act) (s s' : St), Good s.stack s.ie → (b = .call → PendsEnabled b s as) → exec b s as = some s' → Good s'.stack s'.ie
  | [], s, s', h, _, he => by cases he; exact h
  | a :: as, s, s', h, hp, he => by
    simp only [exec] at he
    split at he
    · cases he
    · rename_i s1 hs
      exact good_exec as s1 s' (good_step h hs (fun ha hb => (hp hb).1 ha)) (fun hb => (hp hb).2 s1 hs) he

theorem good_start : Good start.stack start.ie := rfl

/-- **C114** On the backends that set the pending bit, polling a delay never lets a task start while `init` or a critical section is in progress, wherever the delay is polled. -/
theorem C114_pend_bit : NoIntrusion .pendBit := by
  rintro as s he ⟨above, x, below, hst, hx, y, hy, hty⟩
  have := good_not_intruded _ _ (good_exec as start s good_start (by simp) he) above x below hst hx y hy
  rw [this] at hty; cases hty

/-- `init` polls a delay and an interrupt is taken before the resources exist; the same in a critical section of idle. -/
theorem C114_call_violated : ¬ NoIntrusion .call ∧
    (∃ s, exec .call start [.pend, .pendEnd, .irq 5] = some s ∧ s.stack = [.task 5, .init]) ∧
    ∃ s, exec .call start [.initDone, .csBegin, .pend, .pendEnd, .irq 5] = some s ∧ s.stack = [.task 5, .cs true, .task 0] := by
  refine ⟨fun h => h [.pend, .pendEnd, .irq 5] ⟨[.task 5, .init], true⟩ rfl ⟨[.task 5], .init, [], rfl, rfl, .task 5, by simp, rfl⟩, ⟨_, rfl, rfl⟩, ⟨_, rfl, rfl⟩⟩

/-- **C114** (partial: `C114_call_violated`) On the ESP32-C3/C6 the claim holds for executions in which a delay that becomes the earliest one is polled with interrupts enabled only. -/
theorem C114_call_partial {as : List Act} {s : St} (he : exec .call start as = some s) (hp : PendsEnabled .call start as) : ¬ Intruded s := by
  rintro ⟨above, x, below, hst, hx, y, hy, hty⟩
  have := good_not_intruded _ _ (good_exec as start s good_start (fun _ => hp) he) above x below hst hx y hy
  rw [this] at hty; cases hty

/-- **C114** (partial) As long as that is so, interrupts are disabled whenever `init`, a critical section or the called timer handler is in progress. -/
theorem C114_disabled_partial {b : Backend} {as : List Act} {s : St} (he : exec b start as = some s) (hp : b = .call → PendsEnabled b start as) (hsh : Shielded s) : s.ie = false := by
  have h := good_exec as start s good_start hp he
  cases hie : s.ie with
  | false => rfl
  | true =>
    obtain ⟨x, hx, hxs⟩ := hsh
    rw [hie] at h
    have := good_no_shield _ h x hx
    rw [this] at hxs; cases hxs

/-- Non-vacuity: a task polls a delay with interrupts enabled; then a critical section is preempted by nothing. -/
example : ∃ s, exec .call start [.initDone, .irq 3, .pend, .csBegin, .csEnd, .pendEnd, .csBegin] = some s ∧ s.stack = [.cs true, .task 3, .task 0] ∧ s.ie = false ∧ Shielded s ∧
    PendsEnabled .call start [.initDone, .irq 3, .pend, .csBegin, .csEnd, .pendEnd, .csBegin] :=
  ⟨_, rfl, rfl, rfl, ⟨.cs true, by simp, rfl⟩, by simp [PendsEnabled, step, start]⟩

/-- With the other backends a delay may be polled in `init` and in critical sections. -/
example : ∃ s, exec .pendBit start [.pend, .initDone, .csBegin, .pend, .csEnd, .irq 5] = some s ∧ s.stack = [.task 5, .task 0] ∧
    exec .pendBit start [.pend, .irq 5] = none ∧ exec .pendBit start [.initDone, .csBegin, .pend, .irq 5] = none := ⟨_, rfl, rfl, rfl, rfl⟩

end Verif.PendCall
