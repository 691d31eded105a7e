import Verif.Executor.Fair

/-!
# The dispatcher on ESP32-C3/C6

On Cortex-M the pending bit of an interrupt is cleared by the hardware on entry; that is the first access of the dispatcher in `Verif.Executor.Model`. On the ESP32 the software interrupts `FROM_CPU_INTR0`–`3` are levels: they
stay asserted until the handler itself clears them, which the generated dispatcher does before it looks at its tasks (`async_entry`, `rtic-macros/src/codegen/bindings/esp32c3.rs:176-189`, `esp32c6.rs:181-194`, called in
`rtic-macros/src/codegen/async_dispatchers.rs:60,70`). The rest is the machine of `Verif.Executor.Model`: `pend` and `unpend` (`rtic/src/export/riscv_esp32c3.rs:79-130`) write one bit, each dispatcher has its own.
-/

namespace Verif.Executor

/-- `entered`: the dispatcher has been entered and has not called `unpend` yet. -/
structure ESt where
  st : St
  entered : Bool

/-- One access. Simplification: entering the handler is one step. -/
def estep (c : Cfg) (s : ESt) (a : Act) : Option (ESt × List Ev) :=
  match a with
  | .disp r =>
    if s.st.ub then none
    else if s.entered then
      -- `rtic::export::unpend(..)`, `esp32c3.rs:184`
      some ({ st := { s.st with irq := false, d := .run c.ts }, entered := false }, [])
    else if s.st.d = .idle ∧ c.zero = false then
      -- the interrupt is taken: the line is asserted and stays so
      if s.st.irq then some ({ s with entered := true }, []) else none
    else match stepDisp c s.st r with
      | none => none
      | some (s1, e) => some ({ s with st := s1 }, e)
  | a => match step c s.st a with
    | none => none
    | some (s1, e) => some ({ s with st := s1 }, e)

def einit : ESt := { st := init, entered := false }

def eexec (c : Cfg) (s : ESt) : List Act → Option (ESt × List Ev)
  | [] => some (s, [])
  | a :: as =>
    match estep c s a with
    | none => none
    | some (s1, e1) =>
      match eexec c s1 as with
      | none => none
      | some (s2, e2) => some (s2, e1 ++ e2)

/-- while the handler has been entered and not cleared the bit, nobody else clears it -/
def EInv (c : Cfg) (s : ESt) : Prop := s.entered = true → s.st.irq = true ∧ s.st.d = .idle ∧ c.zero = false

theorem eexec_cons {c : Cfg} {s : ESt} {a : Act} {as : List Act} {s2 : ESt} {tr : List Ev} (h : eexec c s (a :: as) = some (s2, tr)) :
    ∃ s1 e1 e2, estep c s a = some (s1, e1) ∧ eexec c s1 as = some (s2, e2) ∧ tr = e1 ++ e2 := by
  simp only [eexec] at h
  cases hs : estep c s a with
  | none => rw [hs] at h; cases h
  | some p =>
    rw [hs] at h; simp only at h
    cases hx : eexec c p.1 as with
    | none => rw [hx] at h; cases h
    | some q =>
      rw [hx] at h
      simp only [Option.some.injEq, Prod.mk.injEq] at h
      obtain ⟨rfl, rfl⟩ := h
      exact ⟨p.1, p.2, q.2, rfl, hx, rfl⟩

/-- number of accesses of spawns and wakers that make `t` due in the execution of `acts` from `s` -/
def eflagCount (c : Cfg) (t : Nat) : ESt → List Act → Nat
  | _, [] => 0
  | s, a :: as =>
    match estep c s a with
    | none => 0
    | some (s1, _) => (if flags t s.st a then 1 else 0) + eflagCount c t s1 as

/-- 1 for true -/
def b2n (b : Bool) : Nat := if b then 1 else 0

/-- One access is one access of the machine with the hardware clearing the bit, except that entering the handler is none. -/
theorem estep_refines {c : Cfg} {s s1 : ESt} {a : Act} {e : List Ev} (hi : EInv c s) (hs : estep c s a = some (s1, e)) :
    EInv c s1 ∧ ((step c s.st a = some (s1.st, e) ∧ s1.entered = (s.entered && !a.isDisp)) ∨ (s1.st = s.st ∧ e = [] ∧ a.isDisp = true ∧ s.entered = false ∧ s1.entered = true)) := by
  cases a with
  | disp r =>
    simp only [estep] at hs
    split at hs
    · cases hs
    · rename_i hu
      split at hs
      · rename_i he
        cases hs
        obtain ⟨h1, h2, h3⟩ := hi he
        refine ⟨by simp [EInv], .inl ⟨?_, by simp [Act.isDisp]⟩⟩
        simp [step, hu, stepDisp, h2, h1]
      · rename_i he
        split at hs
        · rename_i hd
          split at hs
          · rename_i hirq
            cases hs
            exact ⟨fun _ => ⟨hirq, hd⟩, .inr ⟨rfl, rfl, rfl, by simpa using he, rfl⟩⟩
          · cases hs
        · split at hs
          · cases hs
          · rename_i s2 e2 hs2
            cases hs
            refine ⟨fun h => absurd h he, .inl ⟨?_, by simpa [Act.isDisp] using he⟩⟩
            simp [step, hu, hs2]
  | callSpawn i t a =>
    simp only [estep] at hs
    split at hs
    · cases hs
    · rename_i s2 e2 hs2
      cases hs
      refine ⟨?_, .inl ⟨hs2, by simp [Act.isDisp]⟩⟩
      intro he
      have := hi he
      have htr := tr_of_step hs2
      simp only [Act.isDisp] at htr
      cases htr <;> first | exact this | exact ⟨rfl, this.2⟩
  | callWake i t =>
    simp only [estep] at hs
    split at hs
    · cases hs
    · rename_i s2 e2 hs2
      cases hs
      refine ⟨?_, .inl ⟨hs2, by simp [Act.isDisp]⟩⟩
      intro he
      have := hi he
      have htr := tr_of_step hs2
      simp only [Act.isDisp] at htr
      cases htr <;> first | exact this | exact ⟨rfl, this.2⟩
  | thr i =>
    simp only [estep] at hs
    split at hs
    · cases hs
    · rename_i s2 e2 hs2
      cases hs
      refine ⟨?_, .inl ⟨hs2, by simp [Act.isDisp]⟩⟩
      intro he
      have := hi he
      have htr := tr_of_step hs2
      simp only [Act.isDisp] at htr
      cases htr <;> first | exact this | exact ⟨rfl, this.2⟩

/-- Every execution has the events of one of the machine with the hardware clearing the bit, in which the dispatcher does at least about half as many accesses. -/
theorem eexec_refines {c : Cfg} : ∀ {acts : List Act} {s s1 : ESt} {e : List Ev}, EInv c s → eexec c s acts = some (s1, e) →
    EInv c s1 ∧ ∃ acts', exec c s.st acts' = some (s1.st, e) ∧ dispCount acts + b2n s.entered ≤ 2 * dispCount acts' + b2n s1.entered ∧
      ∀ t, flagCount c t s.st acts' = eflagCount c t s acts := by
  intro acts
  induction acts with
  | nil =>
    intro s s1 e hi h
    simp only [eexec, Option.some.injEq, Prod.mk.injEq] at h; obtain ⟨rfl, rfl⟩ := h
    exact ⟨hi, [], rfl, by simp [dispCount], fun _ => rfl⟩
  | cons a as ih =>
    intro s s1 e hi h
    obtain ⟨s2, e1, e2, h1, h2, rfl⟩ := eexec_cons h
    obtain ⟨hi2, hr⟩ := estep_refines hi h1
    obtain ⟨hi3, acts', hx, hc, hfl⟩ := ih hi2 h2
    refine ⟨hi3, ?_⟩
    rcases hr with ⟨hs, he⟩ | ⟨hs, he, hd, hf, ht⟩
    · refine ⟨a :: acts', by simp [exec, hs, hx], ?_, fun t => by simp [flagCount, hs, eflagCount, h1, hfl]⟩
      rw [dispCount_cons, dispCount_cons]
      rw [he] at hc
      cases hb : a.isDisp <;> cases hse : s.entered <;> simp [b2n, hb, hse] at hc ⊢ <;> omega
    · subst he
      have hna : ∀ t, flags t s.st a = false := by cases a <;> simp_all [Act.isDisp, flags]
      rw [← hs]
      refine ⟨acts', by simpa using hx, ?_, fun t => by simp [eflagCount, h1, hna t, hfl]⟩
      rw [dispCount_cons, hd]
      simp [b2n, hf, ht] at hc ⊢
      omega

theorem einv_init (c : Cfg) : EInv c einit := by simp [EInv, einit]

theorem thr_refines {c : Cfg} {s s1 : ESt} {i : Nat} {e : List Ev} (hs : estep c s (.thr i) = some (s1, e)) : step c s.st (.thr i) = some (s1.st, e) := by
  simp only [estep] at hs
  split at hs
  · cases hs
  · rename_i s2 e2 hs2
    cases hs
    exact hs2

theorem wake_refines {c : Cfg} {s s1 : ESt} {i t : Nat} {e : List Ev} (hs : estep c s (.callWake i t) = some (s1, e)) : step c s.st (.callWake i t) = some (s1.st, e) := by
  simp only [estep] at hs
  split at hs
  · cases hs
  · rename_i s2 e2 hs2
    cases hs
    exact hs2

/-- **C36** (ESP32) As `C36_spawn_ok_iff`. -/
theorem C36_esp_spawn_ok_iff {c : Cfg} {acts : List Act} {s s1 : ESt} {h e : List Ev} {i t a : Nat} (hx : eexec c einit acts = some (s, h))
    (hp : s.st.pc i = .s1 t a) (hs : estep c s (.thr i) = some (s1, e)) :
    ((oks t h).length = dones t h → e = [.ok t a]) ∧ ((oks t h).length ≠ dones t h → e = [.err t a]) := by
  obtain ⟨-, acts', hx', -⟩ := eexec_refines (einv_init c) hx
  exact C36_spawn_ok_iff hx' hp (thr_refines hs)

/-- **C36** (ESP32) As `C36_at_most_one` and `C36_args_once`. -/
theorem C36_esp_args_once {c : Cfg} {acts : List Act} {s : ESt} {h : List Ev} (hx : eexec c einit acts = some (s, h)) (t : Nat) :
    (dones t h ≤ (oks t h).length ∧ (oks t h).length ≤ dones t h + 1) ∧
    (oks t h = starts t h ∨ ∃ a, oks t h = starts t h ++ [a]) ∧ ((oks t h).length = dones t h → starts t h = oks t h) := by
  obtain ⟨-, acts', hx', -⟩ := eexec_refines (einv_init c) hx
  exact ⟨C36_at_most_one hx' t, C36_args_once hx' t⟩

/-- the dispatcher can proceed: it is running, or its line is asserted -/
def EReady (c : Cfg) (s : ESt) : Prop := ∃ s1 e, estep c s (.disp false) = some (s1, e)

theorem eready {c : Cfg} {s : ESt} (h : Ready c s.st) : EReady c s := by
  obtain ⟨s1, e, h⟩ := h
  have hu := ub_of_step h
  simp only [step, hu, Bool.false_eq_true, if_false] at h
  unfold EReady estep
  simp only [hu, Bool.false_eq_true, if_false]
  split
  · exact ⟨_, _, rfl⟩
  · split
    · rename_i hd
      split
      · exact ⟨_, _, rfl⟩
      · rename_i hirq
        simp [stepDisp, hd.1, hd.2, hirq] at h
    · simp [h]

/-- **C37** (ESP32, wake) As `C37_woken_is_polled`: after a waker of the live task `t` has been called and the call has returned, in any interleaving and in particular if the dispatcher is just being entered or just clearing its bit, at every
later moment the task has been polled since the call began (or its body was just running and returned `Ready`, or there was undefined behaviour, see C38), or the dispatcher is ready to proceed; and after twice two rounds of the dispatcher it has been polled. -/
theorem C37_esp_woken_is_polled {c : Cfg} {acts0 acts1 acts2 : List Act} {s0 s1 s2 s3 : ESt} {h0 e1 e2 e3 : List Ev} {i t : Nat}
    (hx : eexec c einit acts0 = some (s0, h0)) (hlive : s0.st.running t = true) (hcall : estep c s0 (.callWake i t) = some (s1, e1))
    (hx1 : eexec c s1 acts1 = some (s2, e2)) (hret : s2.st.pc i = .idle) (hx2 : eexec c s2 acts2 = some (s3, e3)) :
    .polled t ∈ e2 ++ e3 ∨ (InBody t s0.st.d ∧ .completed t ∈ e2 ++ e3) ∨ (∃ t', .badPoll t' ∈ e2 ++ e3) ∨
      (EReady c s3 ∧ dispCount acts2 < 2 * twoRounds c + 1) := by
  obtain ⟨hi0, a0, hx', -⟩ := eexec_refines (einv_init c) hx
  obtain ⟨hi1, -⟩ := estep_refines hi0 hcall
  obtain ⟨hi2, a1, hx1', -⟩ := eexec_refines hi1 hx1
  obtain ⟨-, a2, hx2', hc, -⟩ := eexec_refines hi2 hx2
  rcases C37_woken_is_polled hx' hlive (wake_refines hcall) hx1' hret hx2' with h | h | h | ⟨h, hf⟩
  · exact .inl h
  · exact .inr (.inl h)
  · exact .inr (.inr (.inl h))
  · refine .inr (.inr (.inr ⟨eready h, ?_⟩))
    cases h1 : s2.entered <;> cases h2 : s3.entered <;> simp [b2n, h1, h2] at hc <;> omega

/-- **C37** (ESP32, spawn) As `C37_spawned_is_polled`. -/
theorem C37_esp_spawned_is_polled {c : Cfg} {acts0 acts1 acts2 : List Act} {s0 s1 s2 s3 : ESt} {h0 e1 e2 e3 : List Ev} {i t a : Nat}
    (hx : eexec c einit acts0 = some (s0, h0)) (ht : t ∈ c.ts) (hok : estep c s0 (.thr i) = some (s1, e1)) (hev : e1 = [.ok t a])
    (hx1 : eexec c s1 acts1 = some (s2, e2)) (hret : s2.st.pc i = .idle) (hx2 : eexec c s2 acts2 = some (s3, e3)) :
    .polled t ∈ e2 ++ e3 ∨ (∃ t', .badPoll t' ∈ e2 ++ e3) ∨ (EReady c s3 ∧ dispCount acts2 < 2 * twoRounds c + 1) := by
  obtain ⟨hi0, a0, hx', -⟩ := eexec_refines (einv_init c) hx
  obtain ⟨hi1, -⟩ := estep_refines hi0 hok
  obtain ⟨hi2, a1, hx1', -⟩ := eexec_refines hi1 hx1
  obtain ⟨-, a2, hx2', hc, -⟩ := eexec_refines hi2 hx2
  rcases C37_spawned_is_polled hx' ht (thr_refines hok) hev hx1' hret hx2' with h | h | ⟨h, hf⟩
  · exact .inl h
  · exact .inr (.inl h)
  · refine .inr (.inr ⟨eready h, ?_⟩)
    cases h1 : s2.entered <;> cases h2 : s3.entered <;> simp [b2n, h1, h2] at hc <;> omega

/-- **C39** (ESP32) As `C39_respawn`. -/
theorem C39_esp_respawn {c : Cfg} {acts acts2 acts3 : List Act} {s s1 s2 s3 s4 : ESt} {h e h2 e3 h4 : List Ev} {t i a : Nat} {r : Bool}
    (hx : eexec c einit acts = some (s, h)) (hs : estep c s (.disp r) = some (s1, e)) (hc : .completed t ∈ e)
    (hx2 : eexec c s1 acts2 = some (s2, h2)) (hno : oks t h2 = [])
    (hp : s2.st.pc i = .s1 t a) (hs3 : estep c s2 (.thr i) = some (s3, e3)) (hx4 : eexec c s3 acts3 = some (s4, h4)) :
    e3 = [.ok t a] ∧ starts t h2 = [] ∧ (starts t h4 = [] ∨ ∃ more, starts t h4 = a :: more) := by
  obtain ⟨hi0, a0, hx', -⟩ := eexec_refines (einv_init c) hx
  obtain ⟨hi1, hr⟩ := estep_refines hi0 hs
  obtain ⟨hi2, a1, hx2', -⟩ := eexec_refines hi1 hx2
  obtain ⟨hi3, -⟩ := estep_refines hi2 hs3
  obtain ⟨-, a2, hx4', -⟩ := eexec_refines hi3 hx4
  rcases hr with ⟨hr, -⟩ | ⟨-, rfl, -⟩
  · exact C39_respawn hx' hr hc hx2' hno hp (thr_refines hs3) hx4'
  · cases hc

/-- **C77** (ESP32) As `C77_spawned_not_starved`. -/
theorem C77_esp_spawned_not_starved {c : Cfg} {acts0 acts1 acts2 : List Act} {s0 s1 s2 s3 : ESt} {h0 e1 e2 e3 : List Ev} {i t u a : Nat} (hn : c.ts.Nodup)
    (hx : eexec c einit acts0 = some (s0, h0)) (hu : u ∈ c.ts) (htu : t ≠ u) (hok : estep c s0 (.thr i) = some (s1, e1)) (hev : e1 = [.ok u a])
    (hx1 : eexec c s1 acts1 = some (s2, e2)) (hret : s2.st.pc i = .idle) (hx2 : eexec c s2 acts2 = some (s3, e3))
    (hno : .polled u ∉ e2 ++ e3) (hbad : ∀ t', .badPoll t' ∉ e2 ++ e3) : polls t e3 ≤ 1 := by
  obtain ⟨hi0, a0, hx', -⟩ := eexec_refines (einv_init c) hx
  obtain ⟨hi1, -⟩ := estep_refines hi0 hok
  obtain ⟨hi2, a1, hx1', -⟩ := eexec_refines hi1 hx1
  obtain ⟨-, a2, hx2', -, -⟩ := eexec_refines hi2 hx2
  exact C77_spawned_not_starved hn hx' hu htu (thr_refines hok) hev hx1' hret hx2' hno hbad

/-- **C77** (ESP32) As `C77_woken_not_starved`. -/
theorem C77_esp_woken_not_starved {c : Cfg} {acts0 acts1 acts2 : List Act} {s0 s1 s2 s3 : ESt} {h0 e1 e2 e3 : List Ev} {i t u : Nat} (hn : c.ts.Nodup)
    (hx : eexec c einit acts0 = some (s0, h0)) (htu : t ≠ u) (hlive : s0.st.running u = true) (hcall : estep c s0 (.callWake i u) = some (s1, e1))
    (hx1 : eexec c s1 acts1 = some (s2, e2)) (hret : s2.st.pc i = .idle) (hx2 : eexec c s2 acts2 = some (s3, e3))
    (hno : .polled u ∉ e2 ++ e3) (hcomp : .completed u ∉ e2 ++ e3) (hbad : ∀ t', .badPoll t' ∉ e2 ++ e3) : polls t e3 ≤ 1 := by
  obtain ⟨hi0, a0, hx', -⟩ := eexec_refines (einv_init c) hx
  obtain ⟨hi1, -⟩ := estep_refines hi0 hcall
  obtain ⟨hi2, a1, hx1', -⟩ := eexec_refines hi1 hx1
  obtain ⟨-, a2, hx2', -, -⟩ := eexec_refines hi2 hx2
  exact C77_woken_not_starved hn hx' htu hlive (wake_refines hcall) hx1' hret hx2' hno hcomp hbad

/-- **C63** (ESP32) A task is polled at most as often as its spawns and wakers made it due. -/
theorem C63_esp_no_idle_polls {c : Cfg} {acts : List Act} {s : ESt} {h : List Ev} (hx : eexec c einit acts = some (s, h)) (t : Nat) :
    polls t h ≤ eflagCount c t einit acts := by
  obtain ⟨-, acts', hx', -, hf⟩ := eexec_refines (einv_init c) hx
  rw [← hf t]
  exact C63_no_idle_polls hx' t

-- task 1 is spawned; while the dispatcher has been entered and not yet cleared its bit, task 0 is spawned too; both are polled in this one run
example : ∃ s, eexec demoC einit [.callSpawn 0 1 7, .thr 0, .thr 0, .thr 0, .thr 0, .disp false, .callSpawn 5 0 8, .thr 5, .thr 5, .thr 5, .thr 5, .disp false,
      .disp false, .disp false, .disp false, .disp true, .disp false, .disp false, .disp false, .disp false, .disp false, .disp false]
    = some (s, [.ok 1 7, .ok 0 8, .started 0 8, .polled 0, .completed 0, .started 1 7, .polled 1]) ∧ s.st.irq = false ∧ ¬ EReady demoC s := by
  refine ⟨_, rfl, rfl, ?_⟩
  rintro ⟨s1, e, h⟩
  cases h

end Verif.Executor
