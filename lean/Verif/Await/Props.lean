import Verif.Await.Generic
import Verif.Signal.Props
import Verif.Watch.Props
import Verif.Arbiter.Props
import Verif.Channel.Progress

/-! # C79: a task whose awaited future has become ready is polled

In every theorem below: `t` is a task; in its latest poll (`SinceLastPoll`) it polled a future of the primitive, which returned `Pending` and has not been dropped since; meanwhile the future has become ready, that is, its
next poll would complete; no operation of the primitive that could still wake is under way, and no call of a waker of `t` is under way (`NoCall`). Then the dispatcher of `t` is ready to proceed and `t` is polled as soon as the dispatcher
has had two rounds of processor time (`WillBePolled`), in every interleaving. -/

namespace Verif.Await

variable {S A E : Type}

/-! ## Primitives with one registered waker: bookkeeping -/

/-- has a waker been registered since the latest poll of the future -/
def regd (isPoll : A → Bool) (isReg : E → Bool) : Bool → List (Ev A E) → Bool
  | k, [] => k
  | k, .act a :: tr => regd isPoll isReg (if isPoll a then false else k) tr
  | k, .m e :: tr => regd isPoll isReg (if isReg e then true else k) tr
  | k, .ex _ :: tr => regd isPoll isReg k tr

theorem regd_append (isPoll : A → Bool) (isReg : E → Bool) (a b : List (Ev A E)) : ∀ k, regd isPoll isReg k (a ++ b) = regd isPoll isReg (regd isPoll isReg k a) b := by
  induction a with
  | nil => intro k; rfl
  | cons x a ih => intro k; cases x <;> simp [regd, ih]

@[simp] theorem regd_ex (isPoll : A → Bool) (isReg : E → Bool) (l : List Executor.Ev) (k : Bool) : regd isPoll isReg k (l.map .ex) = k := by
  induction l with
  | nil => rfl
  | cons x l ih => simpa [regd] using ih

theorem regd_mem {isPoll : A → Bool} {isReg : E → Bool} : ∀ {b : List (Ev A E)} {k : Bool}, regd isPoll isReg k b = true →
    (k = false ∨ ∃ a, isPoll a = true ∧ .act a ∈ b) → ∃ e, isReg e = true ∧ .m e ∈ b := by
  intro b
  induction b with
  | nil => intro k h h'; simp only [regd] at h; subst h; rcases h' with h | ⟨a, -, h⟩ <;> cases h
  | cons x b ih =>
    intro k h h'
    cases x with
    | act a =>
      simp only [regd] at h
      have : (if isPoll a then false else k) = false ∨ ∃ a, isPoll a = true ∧ .act a ∈ b := by
        by_cases ha : isPoll a
        · left; simp [ha]
        · rcases h' with h' | ⟨a', h1, h2⟩
          · left; simp [h']
          · rcases List.mem_cons.mp h2 with h2 | h2
            · cases h2; exact absurd h1 ha
            · exact .inr ⟨a', h1, h2⟩
      obtain ⟨e, h1, h2⟩ := ih h this
      exact ⟨e, h1, List.mem_cons_of_mem _ h2⟩
    | m e =>
      simp only [regd] at h
      by_cases he : isReg e
      · exact ⟨e, he, List.mem_cons_self ..⟩
      · rw [if_neg he] at h
        have : k = false ∨ ∃ a, isPoll a = true ∧ .act a ∈ b := by
          rcases h' with h' | ⟨a', h1, h2⟩
          · exact .inl h'
          · exact .inr ⟨a', h1, by simpa using h2⟩
        obtain ⟨e, h1, h2⟩ := ih h this
        exact ⟨e, h1, List.mem_cons_of_mem _ h2⟩
    | ex e =>
      simp only [regd] at h
      have : k = false ∨ ∃ a, isPoll a = true ∧ .act a ∈ b := by
        rcases h' with h' | ⟨a', h1, h2⟩
        · exact .inl h'
        · exact .inr ⟨a', h1, by simpa using h2⟩
      obtain ⟨e, h1, h2⟩ := ih h this
      exact ⟨e, h1, List.mem_cons_of_mem _ h2⟩

theorem exec_snoc {step : S → A → Option (S × List E)} {exec : S → List A → Option (S × List E)} (h0 : ∀ s, exec s [] = some (s, []))
    (h1 : ∀ s a as s1 e, step s a = some (s1, e) → ∀ r, exec s (a :: as) = some r ↔ ∃ s2 es, exec s1 as = some (s2, es) ∧ r = (s2, e ++ es)) (hn : ∀ s a as, step s a = none → exec s (a :: as) = none) :
    ∀ {as : List A} {s s' s'' : S} {tr e : List E} {a : A}, exec s as = some (s', tr) → step s' a = some (s'', e) → exec s (as ++ [a]) = some (s'', tr ++ e) := by
  intro as
  induction as with
  | nil =>
    intro s s' s'' tr e a h hs
    rw [h0] at h; cases h
    rw [List.nil_append, h1 _ _ _ _ _ hs]
    exact ⟨_, _, h0 _, by simp⟩
  | cons b as ih =>
    intro s s' s'' tr e a h hs
    cases hb : step s b with
    | none => rw [hn _ _ _ hb] at h; cases h
    | some p =>
      obtain ⟨s1, e1⟩ := p
      rw [h1 _ _ _ _ _ hb] at h
      obtain ⟨s2, es, hx, h⟩ := h
      cases h
      rw [List.cons_append, h1 _ _ _ _ _ hb]
      exact ⟨_, _, ih hx hs, by simp⟩

/-! ## Signal -/

section
variable {T : Type}

/-- A signal shared by tasks. -/
def signal (T : Type) (xc : Executor.Cfg) : Cfg (Signal.St T) (Signal.Act T) (Signal.Ev T) :=
  { m := Signal.step, m0 := Signal.init, woke := fun | .woke w => some w | _ => none, xc := xc }

theorem signal_one_wake {s s' : Signal.St T} {a : Signal.Act T} {e : List (Signal.Ev T)} (h : Signal.step s a = some (s', e)) (xc) :
    (e.filterMap (signal T xc).woke).length ≤ 1 := by
  cases Signal.tr_of_step h <;> simp [signal]

theorem signal_reach {xc} {s : St (Signal.St T)} {tr} (hx : Reach (signal T xc) s tr) :
    Signal.Reach s.m (mEvs tr) :=
  proj_m (R := Signal.Reach) ⟨[], rfl⟩ (fun s tr a s' e ⟨as, h⟩ hs =>
    ⟨as ++ [a], exec_snoc (step := Signal.step) (exec := Signal.exec) (fun _ => rfl)
      (by intro s a as s1 e h r; simp only [Signal.exec, h]; split <;> grind) (by intro s a as h; simp only [Signal.exec, h]) h hs⟩) hx

def sigIsPoll : Signal.Act T → Bool
  | .poll _ => true
  | _ => false

def sigIsReg : Signal.Ev T → Bool
  | .reg _ => true
  | _ => false

theorem sig_reg_woke {t : Nat} {l : List (Signal.Ev T)} : ∀ {r}, Signal.regState r l = some (t, true) → (r ≠ some (t, true) ∨ ∃ e, sigIsReg e = true ∧ e ∈ l) → .woke t ∈ l := by
  induction l with
  | nil => intro r h h'; simp only [Signal.regState] at h; rcases h' with h' | ⟨e, -, h'⟩; exact absurd h h'; cases h'
  | cons x l ih =>
    intro r h h'
    cases x with
    | reg w => simp only [Signal.regState] at h; exact List.mem_cons_of_mem _ (ih h (.inl (by simp)))
    | woke w =>
      by_cases hw : w = t
      · subst hw; exact List.mem_cons_self ..
      · refine List.mem_cons_of_mem _ ?_
        rcases r with _ | ⟨w0, b⟩
        · simp only [Signal.regState] at h; exact ih h (.inl (by simp))
        · simp only [Signal.regState] at h
          refine ih h ?_
          rcases h' with h' | ⟨e, he, h'⟩
          · left; grind
          · right
            rcases List.mem_cons.mp h' with rfl | h'
            · cases he
            · exact ⟨e, he, h'⟩
    | _ =>
      simp only [Signal.regState] at h
      refine List.mem_cons_of_mem _ (ih h ?_)
      rcases h' with h' | ⟨e, he, h'⟩
      · exact .inl h'
      · right
        rcases List.mem_cons.mp h' with rfl | h'
        · cases he
        · exact ⟨e, he, h'⟩

/-- while a poll has not registered its waker yet, the future is not pending -/
theorem sig_regd {xc} {s : St (Signal.St T)} {tr} (hx : Reach (signal T xc) s tr) :
    regd sigIsPoll sigIsReg true tr = true ∨ (∃ w, s.m.rx = .fresh1 w) ∨ ∃ f w, s.m.rx = .poll0 f w := by
  obtain ⟨as, hx⟩ := hx
  have := exec_induct (c := signal T xc) (P := fun s tr => regd sigIsPoll sigIsReg true tr = true ∨ (∃ w, s.m.rx = .fresh1 w) ∨ ∃ f w, s.m.rx = .poll0 f w) (by
    intro s tr s' e h ht
    have key : ∀ a m e, Signal.step s.m a = some (m, e) → regd sigIsPoll sigIsReg true (tr ++ .act a :: e.map .m) = true ∨ (∃ w, m.rx = .fresh1 w) ∨ ∃ f w, m.rx = .poll0 f w := by
      intro a m e hm
      rw [regd_append]
      generalize regd sigIsPoll sigIsReg true tr = k at h ⊢
      cases Signal.tr_of_step hm <;> simp only [regd, sigIsPoll, List.map] <;> grind [sigIsReg]
    cases ht with
    | quiet a m e hm hw => exact key a m e hm
    | wake _ a m e t x xe hm hw hx => exact key a m e hm
    | ex a x e hx => simpa [regd_append] using h) as (init _) [] s tr (.inl rfl) hx
  simpa using this

/-- the waker of the task has been called since its latest poll -/
theorem signal_woken {xc} {s : St (Signal.St T)} {tr b} {t w : Nat} {f : Bool} 
    (hx : Reach (signal T xc) s tr) (hb : SinceLastPoll t tr b) (hpoll : .act (.poll w) ∈ b) (hp : s.m.rx = .pend f t)
    (hready : s.m.store ≠ none) (hrest : ∀ i, s.m.wr i = false) :
    ∃ e, (signal T xc).woke e = some t ∧ .m e ∈ b := by
  obtain ⟨a, rfl, -, -⟩ := hb
  have hr := Signal.C20_no_missed_write (signal_reach hx) hp hready
  have hreg : Signal.regState none (mEvs (a ++ .ex (.polled t) :: b)) = some (t, true) := by
    rcases hr with h | ⟨i, s', e, h, -⟩
    · exact h
    · simp only [Signal.step, hrest i] at h; cases h
  have hk : regd sigIsPoll sigIsReg true (a ++ .ex (.polled t) :: b) = true := by
    rcases sig_regd hx with h | ⟨w, h⟩ | ⟨f, w, h⟩
    · exact h
    · rw [hp] at h; cases h
    · rw [hp] at h; cases h
  rw [regd_append] at hk
  obtain ⟨e, he, hm⟩ := regd_mem (b := b) (k := regd sigIsPoll sigIsReg true a) (by simpa [regd] using hk) (.inr ⟨_, rfl, hpoll⟩)
  rw [mEvs_append, Signal.regState_append] at hreg
  have := sig_reg_woke (l := mEvs b) hreg (.inr ⟨e, he, mem_mEvs.2 hm⟩)
  exact ⟨.woke t, rfl, mem_mEvs.1 this⟩

/-- **C79** (`Signal`) A task that awaits `wait()` or `wait_fresh()` of a signal is polled when a value has been written: the signal holds a value and no `write` is under way. -/
theorem C79_signal_wait {xc} {s : St (Signal.St T)} {tr b} {t w : Nat} {f : Bool} (ht : t ∈ xc.ts)
    (hx : Reach (signal T xc) s tr) (hb : SinceLastPoll t tr b) (hpoll : .act (.poll w) ∈ b) (hp : s.m.rx = .pend f t)
    (hready : s.m.store ≠ none) (hrest : ∀ i, s.m.wr i = false) (hno : NoCall t s.ex) :
    WillBePolled (signal T xc) t s ∧ (Executor.Ready xc s.ex ∨ s.ex.ub = true) :=
  woken_polled ht hx hb (signal_woken hx hb hpoll hp hready hrest) hno

end

/-! ## Watch -/

section
variable {T : Type}

/-- A watch shared by tasks. -/
def watch (T : Type) (xc : Executor.Cfg) : Cfg (Watch.St T) (Watch.Act T) (Watch.Ev T) :=
  { m := Watch.step, m0 := Watch.init, woke := fun | .woke w => some w | _ => none, xc := xc }

theorem watch_one_wake {s s' : Watch.St T} {a : Watch.Act T} {e : List (Watch.Ev T)} (h : Watch.step s a = some (s', e)) (xc) :
    (e.filterMap (watch T xc).woke).length ≤ 1 := by
  cases Watch.tr_of_step h <;> simp [watch]

theorem watch_reach {xc} {s : St (Watch.St T)} {tr} (hx : Reach (watch T xc) s tr) : Watch.Reach s.m (mEvs tr) :=
  proj_m (R := Watch.Reach) ⟨[], rfl⟩ (fun _ _ _ _ _ h hs => h.step hs) hx

def watchIsPoll : Watch.Act T → Bool
  | .poll _ => true
  | _ => false

def watchIsReg : Watch.Ev T → Bool
  | .reg _ => true
  | _ => false

theorem watch_reg_woke {t : Nat} {l : List (Watch.Ev T)} : ∀ {r}, Watch.regState r l = some (t, true) → (r ≠ some (t, true) ∨ ∃ e, watchIsReg e = true ∧ e ∈ l) → .woke t ∈ l := by
  induction l with
  | nil => intro r h h'; simp only [Watch.regState] at h; rcases h' with h' | ⟨e, -, h'⟩; exact absurd h h'; cases h'
  | cons x l ih =>
    intro r h h'
    cases x with
    | reg w => simp only [Watch.regState] at h; exact List.mem_cons_of_mem _ (ih h (.inl (by simp)))
    | woke w =>
      by_cases hw : w = t
      · subst hw; exact List.mem_cons_self ..
      · refine List.mem_cons_of_mem _ ?_
        rcases r with _ | ⟨w0, b⟩
        · simp only [Watch.regState] at h; exact ih h (.inl (by simp))
        · simp only [Watch.regState] at h
          refine ih h ?_
          rcases h' with h' | ⟨e, he, h'⟩
          · left; grind
          · right
            rcases List.mem_cons.mp h' with rfl | h'
            · cases he
            · exact ⟨e, he, h'⟩
    | _ =>
      simp only [Watch.regState] at h
      refine List.mem_cons_of_mem _ (ih h ?_)
      rcases h' with h' | ⟨e, he, h'⟩
      · exact .inl h'
      · right
        rcases List.mem_cons.mp h' with rfl | h'
        · cases he
        · exact ⟨e, he, h'⟩

theorem watch_regd {xc} {s : St (Watch.St T)} {tr} (hx : Reach (watch T xc) s tr) : regd watchIsPoll watchIsReg true tr = true ∨ ∃ w, s.m.rx = .c0 w := by
  obtain ⟨as, hx⟩ := hx
  have := exec_induct (c := watch T xc) (P := fun s tr => regd watchIsPoll watchIsReg true tr = true ∨ ∃ w, s.m.rx = .c0 w) (by
    intro s tr s' e h ht
    have key : ∀ a m e, Watch.step s.m a = some (m, e) → regd watchIsPoll watchIsReg true (tr ++ .act a :: e.map .m) = true ∨ ∃ w, m.rx = .c0 w := by
      intro a m e hm
      rw [regd_append]
      generalize regd watchIsPoll watchIsReg true tr = k at h ⊢
      cases Watch.tr_of_step hm <;> simp only [regd, watchIsPoll, List.map] <;> grind [watchIsReg]
    cases ht with
    | quiet a m e hm hw => exact key a m e hm
    | wake _ a m e t x xe hm hw hx => exact key a m e hm
    | ex a x e hx => simpa [regd_append] using h) as (init _) [] s tr (.inl rfl) hx
  simpa using this

/-- the waker of the task has been called since its latest poll -/
theorem watch_woken {xc} {s : St (Watch.St T)} {tr b} {t w : Nat} 
    (hx : Reach (watch T xc) s tr) (hb : SinceLastPoll t tr b) (hpoll : .act (.poll w) ∈ b) (hp : s.m.rx = .pend t)
    (hc : Watch.Clean (mEvs tr)) (hready : Watch.unseen false (mEvs tr) = true) (hrest : ∀ i, s.m.wr i = false) :
    ∃ e, (watch T xc).woke e = some t ∧ .m e ∈ b := by
  obtain ⟨a, rfl, -, -⟩ := hb
  have hr := Watch.C22_changed_partial (watch_reach hx) hc hready hp
  have hreg : Watch.regState none (mEvs (a ++ .ex (.polled t) :: b)) = some (t, true) := by
    rcases hr with h | ⟨i, s', e, h, -⟩
    · exact h
    · simp only [Watch.step, hrest i] at h; cases h
  have hk : regd watchIsPoll watchIsReg true (a ++ .ex (.polled t) :: b) = true := by
    rcases watch_regd hx with h | ⟨w, h⟩
    · exact h
    · rw [hp] at h; cases h
  rw [regd_append] at hk
  obtain ⟨e, he, hm⟩ := regd_mem (b := b) (k := regd watchIsPoll watchIsReg true a) (by simpa [regd] using hk) (.inr ⟨_, rfl, hpoll⟩)
  rw [mEvs_append, Watch.regState_append] at hreg
  have := watch_reg_woke (l := mEvs b) hreg (.inr ⟨e, he, mem_mEvs.2 hm⟩)
  exact ⟨.woke t, rfl, mem_mEvs.1 this⟩

/-- **C22**, part that holds, together with the executor: a task that awaits `changed()` of a watch is polled when a value has been written that it has not been handed, if no write fell between a copy and the mark that follows it (`Clean`). -/
theorem C22_task_polled_partial {xc} {s : St (Watch.St T)} {tr b} {t w : Nat} (ht : t ∈ xc.ts)
    (hx : Reach (watch T xc) s tr) (hb : SinceLastPoll t tr b) (hpoll : .act (.poll w) ∈ b) (hp : s.m.rx = .pend t)
    (hc : Watch.Clean (mEvs tr)) (hready : Watch.unseen false (mEvs tr) = true) (hrest : ∀ i, s.m.wr i = false) (hno : NoCall t s.ex) :
    WillBePolled (watch T xc) t s ∧ (Executor.Ready xc s.ex ∨ s.ex.ub = true) :=
  woken_polled ht hx hb (watch_woken hx hb hpoll hp hc hready hrest) hno

end

/-! ## Channel -/

section
variable {T : Type}

/-- A channel of capacity `n` between tasks. -/
def channel (T : Type) (n : Nat) (xc : Executor.Cfg) : Cfg (Channel.St T) (Channel.Act T) (Channel.Ev T) :=
  { m := Channel.step n, m0 := Channel.init n, woke := fun | .wokeR w => some w | .wokeS _ w => some w | _ => none, xc := xc }

theorem channel_one_wake {n : Nat} {s s' : Channel.St T} {a : Channel.Act T} {e : List (Channel.Ev T)} (h : Channel.step n s a = some (s', e)) (xc) :
    (e.filterMap (channel T n xc).woke).length ≤ 1 := by
  have hf : ∀ i v k, (Channel.finEv (T := T) i v k).filterMap (channel T n xc).woke = [] := by intro i v k; cases k <;> simp [Channel.finEv, channel]
  have h1 : ∀ i w, (channel T n xc).woke (.wokeS i w) = some w := fun _ _ => rfl
  have h2 : ∀ w, (channel T n xc).woke (.wokeR w) = some w := fun _ => rfl
  cases Channel.trans_of_step h <;> simp [hf, h1, h2] <;> simp [channel]

theorem channel_reach {n : Nat} {xc} {s : St (Channel.St T)} {tr} (hx : Reach (channel T n xc) s tr) : Channel.Reach n s.m (mEvs tr) :=
  proj_m (R := Channel.Reach n) ⟨[], rfl⟩ (fun s tr a s' e ⟨as, h⟩ hs =>
    ⟨as ++ [a], exec_snoc (step := Channel.step n) (exec := Channel.exec n) (fun _ => rfl)
      (by intro s a as s1 e h r; simp only [Channel.exec, h]; split <;> grind) (by intro s a as h; simp only [Channel.exec, h]) h hs⟩) hx

def recvIsPoll : Channel.Act T → Bool
  | .pollRecv _ => true
  | _ => false

def recvIsReg : Channel.Ev T → Bool
  | .reg _ => true
  | _ => false

theorem recv_reg_woke {t : Nat} {l : List (Channel.Ev T)} : ∀ {r}, Channel.regState r l = some (t, true) → (r ≠ some (t, true) ∨ ∃ e, recvIsReg e = true ∧ e ∈ l) → .wokeR t ∈ l := by
  induction l with
  | nil => intro r h h'; simp only [Channel.regState] at h; rcases h' with h' | ⟨e, -, h'⟩; exact absurd h h'; cases h'
  | cons x l ih =>
    intro r h h'
    cases x with
    | reg w => simp only [Channel.regState] at h; exact List.mem_cons_of_mem _ (ih h (.inl (by simp)))
    | wokeR w =>
      by_cases hw : w = t
      · subst hw; exact List.mem_cons_self ..
      · refine List.mem_cons_of_mem _ ?_
        rcases r with _ | ⟨w0, b⟩
        · simp only [Channel.regState] at h; exact ih h (.inl (by simp))
        · simp only [Channel.regState] at h
          refine ih h ?_
          rcases h' with h' | ⟨e, he, h'⟩
          · left; grind
          · right
            rcases List.mem_cons.mp h' with rfl | h'
            · cases he
            · exact ⟨e, he, h'⟩
    | _ =>
      simp only [Channel.regState] at h
      refine List.mem_cons_of_mem _ (ih h ?_)
      rcases h' with h' | ⟨e, he, h'⟩
      · exact .inl h'
      · right
        rcases List.mem_cons.mp h' with rfl | h'
        · cases he
        · exact ⟨e, he, h'⟩

theorem recv_regd {n : Nat} {xc} {s : St (Channel.St T)} {tr} (hx : Reach (channel T n xc) s tr) :
    regd recvIsPoll recvIsReg true tr = true ∨ ∃ w, s.m.rx = .poll0 w := by
  obtain ⟨as, hx⟩ := hx
  have := exec_induct (c := channel T n xc) (P := fun s tr => regd recvIsPoll recvIsReg true tr = true ∨ ∃ w, s.m.rx = .poll0 w) (by
    intro s tr s' e h ht
    have key : ∀ a m e, Channel.step n s.m a = some (m, e) → regd recvIsPoll recvIsReg true (tr ++ .act a :: e.map .m) = true ∨ ∃ w, m.rx = .poll0 w := by
      intro a m e hm
      by_cases hp : recvIsPoll a = true
      · right
        cases a <;> simp only [recvIsPoll] at hp <;> try cases hp
        simp only [Channel.step] at hm
        split at hm <;> cases hm <;> exact ⟨_, rfl⟩
      · have hq : ∀ e : List (Channel.Ev T), ∀ k, regd (A := Channel.Act T) recvIsPoll recvIsReg k (.act a :: e.map .m) = regd (A := Channel.Act T) recvIsPoll recvIsReg k (e.map .m) := by
          intro e k; simp only [regd]; rw [if_neg hp]
        have hmono : ∀ (e : List (Channel.Ev T)) k, k = true → regd (A := Channel.Act T) recvIsPoll recvIsReg k (e.map .m) = true := by
          intro e
          induction e with
          | nil => intro k h; exact h
          | cons x e ih => intro k h; simp only [List.map, regd]; refine ih _ ?_; split; rfl; exact h
        rw [regd_append, hq]
        rcases h with h | ⟨w, h⟩
        · exact .inl (hmono e _ h)
        · generalize regd recvIsPoll recvIsReg true tr = k
          have := Channel.trans_of_step hm
          cases this <;> first | (right; exact ⟨w, h⟩) | (rw [h] at *; simp_all; done) | (left; simp [regd, recvIsReg]; done) | skip
          all_goals simp_all
    cases ht with
    | quiet a m e hm hw => exact key a m e hm
    | wake _ a m e t x xe hm hw hx => exact key a m e hm
    | ex a x e hx => simpa [regd_append] using h) as (init _) [] s tr (.inl rfl) hx
  simpa using this

/-- the waker of the task has been called since its latest poll -/
theorem recv_woken {n : Nat} {xc} {s : St (Channel.St T)} {tr b} {t w : Nat} 
    (hx : Reach (channel T n xc) s tr) (hb : SinceLastPoll t tr b) (hpoll : .act (.pollRecv w) ∈ b) (hp : s.m.rx = .pend t)
    (hready : Channel.queued s.m ≠ [] ∨ ∀ i, ¬ Channel.Alive s.m i) (hrest : ∀ i, Channel.step n s.m (.go i) = none) :
    ∃ e, (channel T n xc).woke e = some t ∧ .m e ∈ b := by
  obtain ⟨a, rfl, -, -⟩ := hb
  have hr := Channel.C05_no_lost_wakeup (channel_reach hx) hp hready
  have hreg : Channel.regState none (mEvs (a ++ .ex (.polled t) :: b)) = some (t, true) := by
    rcases hr with h | ⟨i, s', e, h, -⟩
    · exact h
    · rw [hrest i] at h; cases h
  have hk : regd recvIsPoll recvIsReg true (a ++ .ex (.polled t) :: b) = true := by
    rcases recv_regd hx with h | ⟨w, h⟩
    · exact h
    · rw [hp] at h; cases h
  rw [regd_append] at hk
  obtain ⟨e, he, hm⟩ := regd_mem (b := b) (k := regd recvIsPoll recvIsReg true a) (by simpa [regd] using hk) (.inr ⟨_, rfl, hpoll⟩)
  rw [mEvs_append, Channel.regState_append] at hreg
  have := recv_reg_woke (l := mEvs b) hreg (.inr ⟨e, he, mem_mEvs.2 hm⟩)
  exact ⟨.wokeR t, rfl, mem_mEvs.1 this⟩

/-- **C79** (`Channel`, receiver) A task that awaits `recv()` is polled when a value is in the channel, or all senders are gone, and no operation of a sender is under way. -/
theorem C79_channel_recv {n : Nat} {xc} {s : St (Channel.St T)} {tr b} {t w : Nat} (ht : t ∈ xc.ts)
    (hx : Reach (channel T n xc) s tr) (hb : SinceLastPoll t tr b) (hpoll : .act (.pollRecv w) ∈ b) (hp : s.m.rx = .pend t)
    (hready : Channel.queued s.m ≠ [] ∨ ∀ i, ¬ Channel.Alive s.m i) (hrest : ∀ i, Channel.step n s.m (.go i) = none) (hno : NoCall t s.ex) :
    WillBePolled (channel T n xc) t s ∧ (Executor.Ready xc s.ex ∨ s.ex.ub = true) :=
  woken_polled ht hx hb (recv_woken hx hb hpoll hp hready hrest) hno

end

/-! ## Primitives with a wait queue: bookkeeping -/

/-- about one future: `none` not polled yet; `some false` polled; `some true` woken since its latest poll -/
def hand (isStart isPoll : A → Bool) (isWake : E → Bool) : Option Bool → List (Ev A E) → Option Bool
  | k, [] => k
  | k, .act a :: tr => hand isStart isPoll isWake (if isStart a then none else if isPoll a then some false else k) tr
  | k, .m e :: tr => hand isStart isPoll isWake (if isWake e then k.map (fun _ => true) else k) tr
  | k, .ex _ :: tr => hand isStart isPoll isWake k tr

theorem hand_append (isStart isPoll : A → Bool) (isWake : E → Bool) (a b : List (Ev A E)) : ∀ k, hand isStart isPoll isWake k (a ++ b) = hand isStart isPoll isWake (hand isStart isPoll isWake k a) b := by
  induction a with
  | nil => intro k; rfl
  | cons x a ih => intro k; cases x <;> simp [hand, ih]

@[simp] theorem hand_ex (isStart isPoll : A → Bool) (isWake : E → Bool) (l : List Executor.Ev) (k : Option Bool) : hand isStart isPoll isWake k (l.map .ex) = k := by
  induction l with
  | nil => rfl
  | cons x l ih => simpa [hand] using ih

theorem hand_m {isStart isPoll : A → Bool} {isWake : E → Bool} : ∀ {e : List E} {k : Option Bool},
    ((∀ x ∈ e, isWake x = false) → hand isStart isPoll isWake k (e.map .m) = k) ∧ ((∃ x ∈ e, isWake x = true) → hand isStart isPoll isWake k (e.map .m) = k.map (fun _ => true)) := by
  intro e
  induction e with
  | nil => intro k; simp [hand]
  | cons x e ih =>
    intro k
    cases hx : isWake x with
    | true =>
      simp only [List.map, hand, hx, if_true]
      refine ⟨fun h => (by have := h x (List.mem_cons_self ..); rw [hx] at this; cases this), fun _ => ?_⟩
      by_cases h : ∃ x ∈ e, isWake x = true
      · rw [ih.2 h]; cases k <;> rfl
      · rw [ih.1 (fun y hy => by cases hy' : isWake y; rfl; exact absurd ⟨y, hy, hy'⟩ h)]
    | false =>
      simp only [List.map, hand, hx, if_false, Bool.false_eq_true]
      refine ⟨fun h => ih.1 (fun y hy => h y (List.mem_cons_of_mem _ hy)), fun ⟨y, hy, hy'⟩ => ih.2 ⟨y, ?_, hy'⟩⟩
      rcases List.mem_cons.mp hy with rfl | hy
      · rw [hx] at hy'; cases hy'
      · exact hy

theorem hand_ne_none {isStart isPoll : A → Bool} {isWake : E → Bool} : ∀ {b : List (Ev A E)} {k : Option Bool}, k ≠ none → (∀ a, .act a ∈ b → isStart a = false) → hand isStart isPoll isWake k b ≠ none := by
  intro b
  induction b with
  | nil => intro k h _; exact h
  | cons x b ih =>
    intro k h hs
    have hs' : ∀ a, .act a ∈ b → isStart a = false := fun a ha => hs a (List.mem_cons_of_mem _ ha)
    cases x with
    | act a =>
      simp only [hand, hs a (List.mem_cons_self ..), Bool.false_eq_true, if_false]
      refine ih ?_ hs'
      split
      · simp
      · exact h
    | m e => simp only [hand]; refine ih ?_ hs'; split; · cases k; exact absurd rfl h; simp
             · exact h
    | ex e => exact ih h hs'

theorem hand_mem {isStart isPoll : A → Bool} {isWake : E → Bool} : ∀ {b : List (Ev A E)} {k : Option Bool}, k ≠ some true → hand isStart isPoll isWake k b = some true → ∃ e, isWake e = true ∧ .m e ∈ b := by
  intro b
  induction b with
  | nil => intro k h h'; exact absurd h' h
  | cons x b ih =>
    intro k h h'
    cases x with
    | act a =>
      simp only [hand] at h'
      obtain ⟨e, h1, h2⟩ := ih (by split; simp; split; simp; exact h) h'
      exact ⟨e, h1, List.mem_cons_of_mem _ h2⟩
    | m e =>
      simp only [hand] at h'
      by_cases he : isWake e = true
      · exact ⟨e, he, List.mem_cons_self ..⟩
      · rw [if_neg he] at h'
        obtain ⟨e, h1, h2⟩ := ih h h'
        exact ⟨e, h1, List.mem_cons_of_mem _ h2⟩
    | ex e =>
      obtain ⟨e, h1, h2⟩ := ih h h'
      exact ⟨e, h1, List.mem_cons_of_mem _ h2⟩

/-- The future polled by `p` in `b`: it has not been replaced by another one (`isStart`). If the bookkeeping of the whole history says woken, then the wake-up is in `b`. -/
theorem hand_since {isStart isPoll : A → Bool} {isWake : E → Bool} {a b1 b2 : List (Ev A E)} {p : A} (hst : isStart p = false) (hp : isPoll p = true)
    (hs : ∀ a, .act a ∈ b2 → isStart a = false) {k : Option Bool} {x : Ev A E} :
    hand isStart isPoll isWake k (a ++ x :: (b1 ++ .act p :: b2)) ≠ none ∧ (hand isStart isPoll isWake k (a ++ x :: (b1 ++ .act p :: b2)) = some true → ∃ e, isWake e = true ∧ .m e ∈ b1 ++ .act p :: b2) := by
  have h : ∀ l : List (Ev A E), hand isStart isPoll isWake k (l ++ .act p :: b2) = hand isStart isPoll isWake (some false) b2 := by
    intro l; rw [hand_append]; simp only [hand, hst, hp, Bool.false_eq_true, if_false, if_true]
  have e1 : a ++ x :: (b1 ++ .act p :: b2) = (a ++ x :: b1) ++ .act p :: b2 := by simp
  rw [e1, h]
  refine ⟨hand_ne_none (by simp) hs, fun h' => ?_⟩
  obtain ⟨e, h1, h2⟩ := hand_mem (by simp) h'
  exact ⟨e, h1, by simp [h2]⟩

/-! ## Arbiter -/

section

/-- An arbiter shared by tasks. -/
def arbiter (xc : Executor.Cfg) : Cfg Arbiter.St Arbiter.Act Arbiter.Ev :=
  { m := Arbiter.step, m0 := Arbiter.init, woke := fun | .handed _ w => some w | _ => none, xc := xc }

theorem arbiter_one_wake {s s' : Arbiter.St} {a : Arbiter.Act} {e : List Arbiter.Ev} (h : Arbiter.step s a = some (s', e)) (xc) :
    (e.filterMap (arbiter xc).woke).length ≤ 1 := by
  cases Arbiter.tr_of_step h <;> simp [arbiter]

theorem arbiter_reach {xc} {s : St Arbiter.St} {tr} (hx : Reach (arbiter xc) s tr) : Arbiter.Reach s.m (mEvs tr) :=
  proj_m (R := Arbiter.Reach) ⟨[], rfl⟩ (fun s tr a s' e ⟨as, h⟩ hs =>
    ⟨as ++ [a], exec_snoc (step := Arbiter.step) (exec := Arbiter.exec) (fun _ => rfl)
      (by intro s a as s1 e h r; simp only [Arbiter.exec, h]; split <;> grind) (by intro s a as h; simp only [Arbiter.exec, h]) h hs⟩) hx

def accStart (i : Nat) (a : Arbiter.Act) : Bool := decide (a = .access i)
def accPoll (i : Nat) : Arbiter.Act → Bool
  | .poll j _ => decide (j = i)
  | _ => false
def accWake (i t : Nat) (e : Arbiter.Ev) : Bool := decide (e = .handed i t)

theorem acc_hand {xc} {s : St Arbiter.St} {tr} {i t : Nat} (hx : Reach (arbiter xc) s tr) (hw : ∀ w, .act (.poll i w) ∈ tr → w = t) (hf : s.m.pc i = .fut) :
    (s.m.lk i = none ∧ hand (accStart i) (accPoll i) (accWake i t) none tr = none) ∨ (s.m.lk i = some ⟨t, false⟩ ∧ hand (accStart i) (accPoll i) (accWake i t) none tr = some false) ∨
    (s.m.lk i = some ⟨t, true⟩ ∧ hand (accStart i) (accPoll i) (accWake i t) none tr = some true) := by
  obtain ⟨as, hx⟩ := hx
  have := exec_induct (c := arbiter xc) (P := fun s tr => (∃ own, Arbiter.Inv s.m own) ∧ ((∀ w, .act (.poll i w) ∈ tr → w = t) → s.m.pc i = .fut →
    (s.m.lk i = none ∧ hand (accStart i) (accPoll i) (accWake i t) none tr = none) ∨ (s.m.lk i = some ⟨t, false⟩ ∧ hand (accStart i) (accPoll i) (accWake i t) none tr = some false) ∨
    (s.m.lk i = some ⟨t, true⟩ ∧ hand (accStart i) (accPoll i) (accWake i t) none tr = some true))) (by
    intro s tr s' e ⟨⟨own, hI⟩, h⟩ ht
    have key : ∀ a m e, Arbiter.step s.m a = some (m, e) → (∃ own, Arbiter.Inv m own) ∧ ((∀ w, .act (.poll i w) ∈ tr ++ .act a :: e.map .m → w = t) → m.pc i = .fut →
        (m.lk i = none ∧ hand (accStart i) (accPoll i) (accWake i t) none (tr ++ .act a :: e.map .m) = none) ∨ (m.lk i = some ⟨t, false⟩ ∧ hand (accStart i) (accPoll i) (accWake i t) none (tr ++ .act a :: e.map .m) = some false) ∨
        (m.lk i = some ⟨t, true⟩ ∧ hand (accStart i) (accPoll i) (accWake i t) none (tr ++ .act a :: e.map .m) = some true)) := by
      intro a m e hm
      refine ⟨Arbiter.inv_step hI hm, fun hw hf => ?_⟩
      have h := h (fun w hw' => hw w (List.mem_append_left _ hw'))
      have hmem := hI.mem i
      have hwa : ∀ w, a = .poll i w → w = t := fun w h => hw w (by simp [h])
      rw [hand_append]
      generalize hand (accStart i) (accPoll i) (accWake i t) none tr = k at h ⊢
      clear hw hI
      cases Arbiter.tr_of_step hm <;> simp only [hand, List.map, accStart, accPoll, accWake, decide_eq_true_eq, Arbiter.set] at hf ⊢ <;> grind [Arbiter.set]
    cases ht with
    | quiet a m e hm hw => exact key a m e hm
    | wake _ a m e t x xe hm hw hx => exact key a m e hm
    | ex a x e hx =>
      refine ⟨⟨own, hI⟩, fun hw hf => ?_⟩
      simpa [hand_append] using h (fun w hw' => hw w (List.mem_append_left _ hw')) hf) as (init _) [] s tr (by exact ⟨⟨none, Arbiter.inv_init⟩, by intro _ h; cases h⟩) hx
  simpa using this.2 (by simpa using hw) hf

/-- the waker of the task has been called since its latest poll -/
theorem access_woken {xc} {s : St Arbiter.St} {tr b1 b2} {i t w : Nat} 
    (hx : Reach (arbiter xc) s tr) (hb : SinceLastPoll t tr (b1 ++ .act (.poll i w) :: b2)) (hsame : .act (.access i) ∉ b2) (hp : s.m.pc i = .fut)
    (hw : ∀ w, .act (.poll i w) ∈ tr → w = t) (hready : ∃ s', Arbiter.step s.m (.poll i t) = some (s', [.acquired i])) :
    ∃ e, (arbiter xc).woke e = some t ∧ .m e ∈ b1 ++ .act (.poll i w) :: b2 := by
  have hh := acc_hand hx hw hp
  obtain ⟨own, hI⟩ := (Arbiter.reach_inv (arbiter_reach hx)).inv
  obtain ⟨a, rfl, -, -⟩ := hb
  obtain ⟨h1, h2⟩ := hand_since (isStart := accStart i) (isPoll := accPoll i) (isWake := accWake i t) (a := a) (b1 := b1) (b2 := b2) (p := .poll i w) (by simp [accStart]) (by simp [accPoll])
    (by intro a ha; simp only [accStart, decide_eq_false_iff_not]; rintro rfl; exact hsame ha) (k := none) (x := .ex (.polled t))
  rcases hh with ⟨-, h⟩ | ⟨hl, -⟩ | ⟨-, h⟩
  · exact absurd h h1
  · obtain ⟨s', hs⟩ := hready
    have hm : i ∈ s.m.wq := (hI.mem i).2 ⟨hp, _, hl, rfl⟩
    have : ¬ (s.m.wq = [] ∧ s.m.taken = false) := by intro h; rw [h.1] at hm; cases hm
    simp [Arbiter.step, hp, this, hl] at hs
  · obtain ⟨e, he, hm⟩ := h2 h
    simp only [accWake, decide_eq_true_eq] at he
    subst he
    exact ⟨_, rfl, hm⟩

/-- **C79** (`Arbiter`) A task that awaits `access()` is polled when the arbiter is free for it: the next poll of its future would acquire. `i` numbers the client: all its polls are by task `t`; in the latest poll of the task the future was polled, and it has not been replaced since. -/
theorem C79_arbiter_access {xc} {s : St Arbiter.St} {tr b1 b2} {i t w : Nat} (ht : t ∈ xc.ts)
    (hx : Reach (arbiter xc) s tr) (hb : SinceLastPoll t tr (b1 ++ .act (.poll i w) :: b2)) (hsame : .act (.access i) ∉ b2) (hp : s.m.pc i = .fut)
    (hw : ∀ w, .act (.poll i w) ∈ tr → w = t) (hready : ∃ s', Arbiter.step s.m (.poll i t) = some (s', [.acquired i])) (hno : NoCall t s.ex) :
    WillBePolled (arbiter xc) t s ∧ (Executor.Ready xc s.ex ∨ s.ex.ub = true) :=
  woken_polled ht hx hb (access_woken hx hb hsame hp hw hready) hno

end

/-! ## Channel, senders -/

section
variable {T : Type}

def sndStart (i : Nat) : Channel.Act T → Bool
  | .startSend j _ => decide (j = i)
  | _ => false
def sndPoll (i : Nat) : Channel.Act T → Bool
  | .poll j _ => decide (j = i)
  | _ => false
def sndWake (i t : Nat) : Channel.Ev T → Bool
  | .wokeS j w => decide (j = i) && decide (w = t)
  | _ => false

theorem snd_frame {n : Nat} {s s' : Channel.St T} {a : Channel.Act T} {e : List (Channel.Ev T)} {i : Nat} {v : T} (h : Channel.step n s a = some (s', e)) (hq : Channel.InvQ s)
    (h1 : sndStart i a = false) (h2 : sndPoll i a = false) (hs : s'.snd i = .snd v) :
    s.snd i = .snd v ∧ ((s'.lk i = s.lk i ∧ ∀ w, .wokeS i w ∉ e) ∨ ∃ l, s.lk i = some l ∧ l.popped = false ∧ s'.lk i = some { l with popped := true } ∧ .wokeS i l.w ∈ e ∧ ∀ w, .wokeS i w ∈ e → w = l.w) := by
  have hp : ∀ j q l, s.wq = j :: q → s.lk j = some l → l.popped = false := by
    intro j q l h1 h2
    obtain ⟨l', h3, h4⟩ := (hq.mem j).1 (by simp [h1])
    rw [h2] at h3; cases h3; exact h4
  clear hq
  cases a <;> simp only [Channel.step, Channel.goS, Channel.goR, Channel.pollSend, Channel.returnFreeSlot, Channel.wakeR, Channel.register, Channel.emptyResult] at h <;>
    simp only [sndStart, sndPoll, decide_eq_false_iff_not] at h1 h2 <;> (repeat' split at h) <;>
    (first | (cases h; done) | skip) <;> (simp only [Option.some.injEq, Prod.mk.injEq] at h; obtain ⟨rfl, rfl⟩ := h) <;>
    simp only [List.mem_append, List.mem_cons, List.not_mem_nil, or_false, Channel.Ev.wokeS.injEq, reduceCtorEq, not_false_eq_true, implies_true, and_true] at hs ⊢ <;> grind [Channel.set]

theorem poll_frame {s : Channel.St T} {i w : Nat} {v v' : T} (h : (Channel.pollSend s i v w).snd i = .snd v') :
    (∃ l, s.lk i = some l ∧ l.popped = false ∧ (Channel.pollSend s i v w).lk i = some l) ∨ (s.lk i = none ∧ (Channel.pollSend s i v w).lk i = some ⟨w, false⟩) := by
  unfold Channel.pollSend at h ⊢
  split
  · rename_i hc; rw [if_pos hc] at h; simp [Channel.set] at h
  · rename_i hc
    rw [if_neg hc] at h
    split
    · rename_i l hl
      rw [hl] at h; simp only at h
      split
      · rename_i hp; rw [if_pos hp] at h
        split at h <;> simp [Channel.set] at h
      · rename_i hp; exact .inl ⟨l, hl, by simpa using hp, hl⟩
    · rename_i hl
      rw [hl] at h; simp only at h
      split
      · exact .inr ⟨hl, by simp [Channel.set]⟩
      · rename_i hp
        rw [if_neg hp] at h
        split at h
        · simp [Channel.set] at h
        · rename_i hf
          exact absurd (.inr (List.getLast?_eq_none_iff.1 hf)) hp

theorem snd_hand {n : Nat} {xc} {s : St (Channel.St T)} {tr} {i t : Nat} {v : T} (hx : Reach (channel T n xc) s tr) (hw : ∀ w, .act (.poll i w) ∈ tr → w = t) (hf : s.m.snd i = .snd v) :
    (s.m.lk i = none ∧ hand (sndStart i) (sndPoll i) (sndWake i t) none tr = none) ∨ (s.m.lk i = some ⟨t, false⟩ ∧ hand (sndStart i) (sndPoll i) (sndWake i t) none tr = some false) ∨
    (s.m.lk i = some ⟨t, true⟩ ∧ hand (sndStart i) (sndPoll i) (sndWake i t) none tr = some true) := by
  obtain ⟨as, hx⟩ := hx
  have := exec_induct (c := channel T n xc) (P := fun s tr => Channel.Inv n s.m ∧ ∀ v, (∀ w, .act (.poll i w) ∈ tr → w = t) → s.m.snd i = .snd v →
    (s.m.lk i = none ∧ hand (sndStart i) (sndPoll i) (sndWake i t) none tr = none) ∨ (s.m.lk i = some ⟨t, false⟩ ∧ hand (sndStart i) (sndPoll i) (sndWake i t) none tr = some false) ∨
    (s.m.lk i = some ⟨t, true⟩ ∧ hand (sndStart i) (sndPoll i) (sndWake i t) none tr = some true)) (by
    intro s tr s' e ⟨hI, h⟩ ht
    have key : ∀ a m e, Channel.step n s.m a = some (m, e) → Channel.Inv n m ∧ ∀ v, (∀ w, .act (.poll i w) ∈ tr ++ .act a :: e.map .m → w = t) → m.snd i = .snd v →
        (m.lk i = none ∧ hand (sndStart i) (sndPoll i) (sndWake i t) none (tr ++ .act a :: e.map .m) = none) ∨ (m.lk i = some ⟨t, false⟩ ∧ hand (sndStart i) (sndPoll i) (sndWake i t) none (tr ++ .act a :: e.map .m) = some false) ∨
        (m.lk i = some ⟨t, true⟩ ∧ hand (sndStart i) (sndPoll i) (sndWake i t) none (tr ++ .act a :: e.map .m) = some true) := by
      intro a m e hm
      refine ⟨Channel.inv_tr hI (Channel.trans_of_step hm), fun v hw hf => ?_⟩
      have h := fun v => h v (fun w hw' => hw w (List.mem_append_left _ hw'))
      rw [hand_append]
      generalize hand (sndStart i) (sndPoll i) (sndWake i t) none tr = k at h ⊢
      by_cases hst : sndStart i a = true
      · left
        cases a <;> simp only [sndStart] at hst <;> try cases hst
        simp only [decide_eq_true_eq] at hst
        subst hst
        simp only [Channel.step] at hm
        split at hm <;> cases hm
        simp [hand, sndStart, sndWake, Channel.set]
      · by_cases hpo : sndPoll i a = true
        · cases a <;> simp only [sndPoll] at hpo <;> try cases hpo
          rename_i j w
          simp only [decide_eq_true_eq] at hpo
          subst hpo
          have hwt := hw w (by simp)
          subst hwt
          simp only [Channel.step] at hm
          split at hm
          · rename_i v' hv
            cases hm
            have h := h v' hv
            have hc := poll_frame hf
            simp only [hand, sndStart, sndPoll, List.map]
            generalize Channel.pollSend s.m j v' w = m at hc ⊢
            clear hf hw
            grind
          · cases hm
        · obtain ⟨hv, hc⟩ := snd_frame hm hI.q (by simpa using hst) (by simpa using hpo) hf
          have h := h v hv
          have hk : hand (sndStart i) (sndPoll i) (sndWake i t) k (.act a :: e.map .m) = hand (sndStart i) (sndPoll i) (sndWake i t) k (e.map (.m : _ → Ev (Channel.Act T) _)) := by
            simp only [hand]; rw [if_neg hst, if_neg hpo]
          rw [hk]
          rcases hc with ⟨hl, hno⟩ | ⟨l, hl, hpop, hl', hin, -⟩
          · rw [hand_m.1 (by intro x hx; cases x <;> simp only [sndWake]; rename_i j w; have := hno w; grind), hl]
            exact h
          · rcases h with ⟨h1, -⟩ | ⟨h1, h2⟩ | ⟨h1, -⟩
            · rw [hl] at h1; cases h1
            · rw [hl] at h1; cases h1
              rw [hand_m.2 ⟨_, hin, by simp [sndWake]⟩, h2]
              exact .inr (.inr ⟨hl', rfl⟩)
            · rw [hl] at h1; cases h1; cases hpop
    cases ht with
    | quiet a m e hm hw => exact key a m e hm
    | wake _ a m e t x xe hm hw hx => exact key a m e hm
    | ex a x e hx =>
      refine ⟨hI, fun v hw hf => ?_⟩
      simpa [hand_append] using h v (fun w hw' => hw w (List.mem_append_left _ hw')) hf) as (init _) [] s tr (by refine ⟨Channel.inv_init n, ?_⟩; intro v _ h; simp only [init, channel, Channel.init] at h; split at h <;> cases h) hx
  simpa using this.2 v (by simpa using hw) hf

/-- the waker of the task has been called since its latest poll -/
theorem send_woken {n : Nat} {xc} {s : St (Channel.St T)} {tr b1 b2} {i t w : Nat} {v : T} 
    (hx : Reach (channel T n xc) s tr) (hb : SinceLastPoll t tr (b1 ++ .act (.poll i w) :: b2)) (hsame : ∀ v, .act (.startSend i v) ∉ b2) (hp : s.m.snd i = .snd v)
    (hw : ∀ w, .act (.poll i w) ∈ tr → w = t) (hready : ∃ s' e, Channel.step n s.m (.poll i t) = some (s', e) ∧ s'.snd i ≠ .snd v) (hrest : Channel.step n s.m .goR = none) :
    ∃ e, (channel T n xc).woke e = some t ∧ .m e ∈ b1 ++ .act (.poll i w) :: b2 := by
  have hh := snd_hand hx hw hp
  have hI := Channel.reach_inv (channel_reach hx)
  obtain ⟨a, rfl, -, -⟩ := hb
  obtain ⟨h1, h2⟩ := hand_since (isStart := sndStart i) (isPoll := sndPoll i) (isWake := sndWake i t) (a := a) (b1 := b1) (b2 := b2) (p := .poll i w) (by simp [sndStart]) (by simp [sndPoll])
    (by intro a ha; cases a <;> simp only [sndStart, decide_eq_false_iff_not]; rintro rfl; exact hsame _ ha) (k := none) (x := .ex (.polled t))
  rcases hh with ⟨-, h⟩ | ⟨hl, -⟩ | ⟨-, h⟩
  · exact absurd h h1
  · exfalso
    obtain ⟨s', e, hs, hne⟩ := hready
    have hm : i ∈ s.m.wq := (hI.q.mem i).2 ⟨_, hl, rfl⟩
    simp only [Channel.step, hp, Channel.pollSend, hl] at hs
    cases hd : s.m.rcvDropped with
    | false => rw [hd] at hs; simp at hs; obtain ⟨rfl, rfl⟩ := hs; exact hne hp
    | true =>
      have h3 := hI.d.iff
      rw [hd] at h3
      have : s.m.rx = .gone := by
        simp only [Channel.step, Channel.goR] at hrest
        cases hrx : s.m.rx <;> simp only [hrx, Channel.Rx.dropping] at h3 hrest <;> first | rfl | cases h3 | skip
        all_goals (repeat' split at hrest) <;> cases hrest
      rw [hI.d.gone this] at hm
      cases hm
  · obtain ⟨e, he, hm⟩ := h2 h
    cases e <;> simp only [sndWake, Bool.and_eq_true, decide_eq_true_eq] at he <;> try cases he
    rename_i j w' h3 h4
    subst h3 h4
    exact ⟨_, rfl, hm⟩

/-- **C79** (`Channel`, sender) A task that awaits `send(v)` is polled when there is room for its value, or the receiver is gone: the next poll of its future would complete (it no longer is between two polls after it); no operation of the receiver is under
way. `i` numbers the sender: all polls of its futures are by task `t`; in the latest poll of the task the future was polled, and it has not been replaced since. -/
theorem C79_channel_send {n : Nat} {xc} {s : St (Channel.St T)} {tr b1 b2} {i t w : Nat} {v : T} (ht : t ∈ xc.ts)
    (hx : Reach (channel T n xc) s tr) (hb : SinceLastPoll t tr (b1 ++ .act (.poll i w) :: b2)) (hsame : ∀ v, .act (.startSend i v) ∉ b2) (hp : s.m.snd i = .snd v)
    (hw : ∀ w, .act (.poll i w) ∈ tr → w = t) (hready : ∃ s' e, Channel.step n s.m (.poll i t) = some (s', e) ∧ s'.snd i ≠ .snd v) (hrest : Channel.step n s.m .goR = none) (hno : NoCall t s.ex) :
    WillBePolled (channel T n xc) t s ∧ (Executor.Ready xc s.ex ∨ s.ex.ub = true) :=
  woken_polled ht hx hb (send_woken hx hb hsame hp hw hready hrest) hno

end

/-! ## The hypotheses can be met -/

/-- one dispatcher with tasks 1 and 2 -/
def demoXc : Executor.Cfg := { ts := [1, 2], zero := false }

/-- task 1 is spawned by thread 9 and its first poll begins -/
def demoStart {A : Type} : List (Act A) :=
  [.ex (.callSpawn 9 1 5), .ex (.thr 9), .ex (.thr 9), .ex (.thr 9), .ex (.thr 9), .ex (.disp false), .ex (.disp false), .ex (.disp false), .ex (.disp false)]

/-- the poll of task 1 ends with `Pending`, and the dispatcher goes to sleep -/
def demoSleep {A : Type} : List (Act A) := [.ex (.disp false), .ex (.disp false), .ex (.disp false)]

/-- the dispatcher runs and polls task 1 -/
def demoPoll {A : Type} : List (Act A) := [.ex (.disp false), .ex (.disp false), .ex (.disp false), .ex (.disp false)]

/-- `a` performed by thread `f a` -/
def via {A : Type} (f : A → Nat) (a : A) : Act A := .m (f a) a

/-- task 1 performs the receiver's actions, thread 3 all others -/
def demoSig : Signal.Act Nat → Nat
  | .poll _ | .go | .wait => 1
  | _ => 3

/-- task 1 awaits `wait()`, then thread 3 writes -/
def demoSigActs : List (Act (Signal.Act Nat)) :=
  demoStart ++ [via demoSig .wait, via demoSig (.poll 1), via demoSig .go, via demoSig .go] ++ demoSleep ++ [via demoSig (.write 0 (some 42)), via demoSig (.wake 0), .ex (.thr 3), .ex (.thr 3)]

example : (exec (signal Nat demoXc) (init (signal Nat demoXc)) demoSigActs).map (fun x => (x.1.m.rx, x.1.m.store, x.1.ex.irq, x.1.ex.d)) = some (.pend false 1, some 42, true, .idle) := rfl

/-- tasks 1 awaits `recv()`, then thread 3 sends -/
def demoChan : Channel.Act Nat → Nat
  | .pollRecv _ | .goR => 1
  | _ => 3

def demoChanActs : List (Act (Channel.Act Nat)) :=
  demoStart ++ [via demoChan (.pollRecv 1), via demoChan .goR, via demoChan .goR, via demoChan .goR] ++ demoSleep ++ [via demoChan (.startTry 0 42), via demoChan (.go 0), via demoChan (.go 0), via demoChan (.go 0), via demoChan (.go 0), via demoChan (.go 0), via demoChan (.go 0), .ex (.thr 3), .ex (.thr 3)]


/-- task 1 awaits `send(42)` (the channel is full), then thread 3 receives -/
def demoSend : Channel.Act Nat → Nat
  | .poll _ _ | .startSend _ _ => 1
  | _ => 3

def demoSendActs : List (Act (Channel.Act Nat)) :=
  [via demoSend (.clone 0 1), via demoSend (.startTry 0 7), via demoSend (.go 0), via demoSend (.go 0), via demoSend (.go 0), via demoSend (.go 0), via demoSend (.go 0), via demoSend (.go 0)] ++ demoStart ++ [via demoSend (.startSend 1 42), via demoSend (.poll 1 1)] ++ demoSleep ++
  [via demoSend .startTryRecv, via demoSend .goR, via demoSend .goR, via demoSend .goR, .ex (.thr 3), .ex (.thr 3)]

/-- task 1 awaits `access()` while client 0 (thread 3) holds the arbiter, which is then released -/
def demoArb : Arbiter.Act → Nat
  | .access _ | .poll _ _ => 1
  | _ => 3

def demoArbActs : List (Act Arbiter.Act) :=
  [via demoArb (.tryAccess 0)] ++ demoStart ++ [via demoArb (.access 1), via demoArb (.poll 1 1)] ++ demoSleep ++ [via demoArb (.dropTok 0), .ex (.thr 3), .ex (.thr 3)]

theorem demo_nocall {x : Executor.St} (h3 : x.pc 3 = .idle) (h9 : x.pc 9 = .idle) (h : ∀ j, j ≠ 3 → j ≠ 9 → x.pc j = .idle) : NoCall 1 x := by
  intro j
  have : x.pc j = .idle := by
    by_cases e3 : j = 3
    · rw [e3]; exact h3
    · by_cases e9 : j = 9
      · rw [e9]; exact h9
      · exact h j e3 e9
  rw [this]; simp

-- each of the theorems applies to the state at the end of its demonstration
example : ∃ s tr, Reach (signal Nat demoXc) s tr ∧ s.m.store = some 42 ∧ WillBePolled (signal Nat demoXc) 1 s := by
  refine ⟨_, _, ⟨demoSigActs, rfl⟩, rfl, (C79_signal_wait (t := 1) (w := 1) (f := false) (by decide) ⟨demoSigActs, rfl⟩
    (b := [.act .wait, .act (.poll 1), .act .go, .m (.reg 1), .act .go, .m (.read none), .act (.write 0 (some 42)), .m (.stored 42), .act (.wake 0), .m (.woke 1)])
    ⟨[.ex (.ok 1 5), .ex (.started 1 5)], rfl, by decide, by decide⟩ (by decide) rfl (by simp) (fun i => ?_) (demo_nocall rfl rfl fun j h3 h9 => ?_)).1⟩
  · by_cases h : i = 0
    · subst h; rfl
    · simp [Signal.set, h, init, signal, Signal.init]
  · simp [Executor.upd, h3, h9, init, Executor.init, signal, demoSig]

example : ∃ s tr, Reach (channel Nat 1 demoXc) s tr ∧ Channel.queued s.m = [42] ∧ WillBePolled (channel Nat 1 demoXc) 1 s := by
  refine ⟨_, _, ⟨demoChanActs, rfl⟩, rfl, (C79_channel_recv (t := 1) (w := 1) (by decide) ⟨demoChanActs, rfl⟩
    (b := [.act (.pollRecv 1), .act .goR, .m (.reg 1), .act .goR, .act .goR, .m .recvPending, .act (.startTry 0 42), .m (.start 0 42), .act (.go 0), .act (.go 0), .act (.go 0), .act (.go 0), .act (.go 0), .m (.enq 0 42), .act (.go 0),
      .m (.wokeR 1), .m (.sendOk 0)])
    ⟨[.ex (.ok 1 5), .ex (.started 1 5)], rfl, by decide, by decide⟩ (by decide) rfl (.inl ?_) (fun i => ?_) (demo_nocall rfl rfl fun j h3 h9 => ?_)).1⟩
  · show [42] ≠ []
    decide
  · by_cases h : i = 0
    · subst h; rfl
    · simp [Channel.step, Channel.goS, Channel.set, h, init, channel, Channel.init]
  · simp [Executor.upd, h3, h9, init, Executor.init, channel, demoChan]

example : ∃ s tr, Reach (channel Nat 1 demoXc) s tr ∧ s.m.snd 1 = .snd 42 ∧ WillBePolled (channel Nat 1 demoXc) 1 s := by
  refine ⟨_, _, ⟨demoSendActs, rfl⟩, rfl, (C79_channel_send (i := 1) (t := 1) (w := 1) (v := 42) (by decide) ⟨demoSendActs, rfl⟩
    (b1 := [.act (.startSend 1 42), .m (.start 1 42)]) (b2 := [.act .startTryRecv, .act .goR, .act .goR, .act .goR, .m (.wokeS 1 1), .m (.recvd 7)])
    ⟨[.act (.clone 0 1), .act (.startTry 0 7), .m (.start 0 7), .act (.go 0), .act (.go 0), .act (.go 0), .act (.go 0), .act (.go 0), .m (.enq 0 7), .act (.go 0), .m (.sendOk 0), .ex (.ok 1 5), .ex (.started 1 5)], rfl, by decide, by decide⟩
    (by simp) rfl (by intro w h; revert h; simp) ⟨_, _, rfl, ?_⟩ rfl (demo_nocall rfl rfl fun j h3 h9 => ?_)).1⟩
  · show (.drop0 42 (.ok 0) : Channel.Pc Nat) ≠ .snd 42
    decide
  · simp [Executor.upd, h3, h9, init, Executor.init, channel, demoSend]

example : ∃ s tr, Reach (arbiter demoXc) s tr ∧ s.m.pc 1 = .fut ∧ WillBePolled (arbiter demoXc) 1 s := by
  refine ⟨_, _, ⟨demoArbActs, rfl⟩, rfl, (C79_arbiter_access (i := 1) (t := 1) (w := 1) (by decide) ⟨demoArbActs, rfl⟩
    (b1 := [.act (.access 1)]) (b2 := [.m (.waiting 1), .act (.dropTok 0), .m (.released 0), .m (.handed 1 1)])
    ⟨[.act (.tryAccess 0), .m (.acquired 0), .ex (.ok 1 5), .ex (.started 1 5)], rfl, by decide, by decide⟩
    (by decide) rfl (by intro w h; revert h; simp) ⟨_, rfl⟩ (demo_nocall rfl rfl fun j h3 h9 => ?_)).1⟩
  simp [Executor.upd, h3, h9, init, Executor.init, arbiter, demoArb]

/-- task 1 awaits `changed()`, then thread 3 writes -/
def demoWatch : Watch.Act Nat → Nat
  | .poll _ | .go | .changed => 1
  | _ => 3

def demoWatchActs : List (Act (Watch.Act Nat)) :=
  demoStart ++ [via demoWatch .changed, via demoWatch (.poll 1), via demoWatch .go, via demoWatch .go, via demoWatch .go] ++ demoSleep ++ [via demoWatch (.write 0 42), via demoWatch (.wake 0), .ex (.thr 3), .ex (.thr 3)]

example : ∃ s tr, Reach (watch Nat demoXc) s tr ∧ s.m.store = some 42 ∧ WillBePolled (watch Nat demoXc) 1 s := by
  refine ⟨_, _, ⟨demoWatchActs, rfl⟩, rfl, (C22_task_polled_partial (t := 1) (w := 1) (by decide) ⟨demoWatchActs, rfl⟩
    (b := [.act .changed, .act (.poll 1), .act .go, .m (.reg 1), .act .go, .act .go, .m (.copied none), .act (.write 0 42), .m (.stored 42), .act (.wake 0), .m (.woke 1)])
    ⟨[.ex (.ok 1 5), .ex (.started 1 5)], rfl, by decide, by decide⟩ (by decide) rfl ?_ rfl (fun i => ?_) (demo_nocall rfl rfl fun j h3 h9 => ?_)).1⟩
  · intro a b c v v' h
    have : .copied (some v) ∈ ([.reg 1, .copied none, .stored 42, .woke 1] : List (Watch.Ev Nat)) := by
      have e : ([.reg 1, .copied none, .stored 42, .woke 1] : List (Watch.Ev Nat)) = a ++ .copied (some v) :: (b ++ .stored v' :: c) := h
      rw [e]; simp
    simp at this
  · by_cases h : i = 0
    · subst h; rfl
    · simp [Watch.set, h, init, watch, Watch.init]
  · simp [Executor.upd, h3, h9, init, Executor.init, watch, demoWatch]

-- and then the dispatcher polls task 1, which gets the value
example : (exec (channel Nat 1 demoXc) (init (channel Nat 1 demoXc)) (demoChanActs ++ demoPoll ++ [via demoChan (.pollRecv 1), via demoChan .goR, via demoChan .goR, via demoChan .goR, via demoChan .goR])).map (fun x => x.2.getLast?) =
    some (some (.m (.recvd 42))) := rfl

end Verif.Await
