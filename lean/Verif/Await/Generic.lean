import Verif.Await.Model
import Verif.Delay.Props

/-! # Awaiting: what holds for every primitive -/

namespace Verif.Await

variable {S A E : Type}

theorem exec_cons {c : Cfg S A E} {s s2 : St S} {a : Act A} {as : List (Act A)} {tr : List (Ev A E)} (h : exec c s (a :: as) = some (s2, tr)) :
    ∃ s1 e1 e2, step c s a = some (s1, e1) ∧ exec c s1 as = some (s2, e2) ∧ tr = e1 ++ e2 := by
  simp only [exec] at h
  cases hs : step c s a with
  | none => rw [hs] at h; cases h
  | some p =>
    rw [hs] at h; simp only at h
    cases hx : exec c p.1 as with
    | none => rw [hx] at h; cases h
    | some q =>
      rw [hx] at h
      simp only [Option.some.injEq, Prod.mk.injEq] at h
      obtain ⟨rfl, rfl⟩ := h
      exact ⟨p.1, p.2, q.2, rfl, hx, rfl⟩

/-- the three kinds of steps -/
inductive Tr (c : Cfg S A E) (s : St S) : St S → List (Ev A E) → Prop
  | quiet (a m e) (hm : c.m s.m a = some (m, e)) (hw : wakes c e = []) : Tr c s { s with m := m } (.act a :: e.map .m)
  | wake (j a m e t x xe) (hm : c.m s.m a = some (m, e)) (hw : wakes c e = [t]) (hx : Executor.step c.xc s.ex (.callWake j t) = some (x, xe)) :
      Tr c s { m := m, ex := x } (.act a :: e.map .m)
  | ex (a x e) (hx : Executor.step c.xc s.ex a = some (x, e)) : Tr c s { s with ex := x } (e.map .ex)

theorem tr_of_step {c : Cfg S A E} {s s' : St S} {a : Act A} {e : List (Ev A E)} (h : step c s a = some (s', e)) : Tr c s s' e := by
  cases a with
  | m j a =>
    simp only [step] at h
    split at h
    · split at h
      · cases h
      · rename_i m e1 hm
        split at h
        · rename_i hw; cases h; exact .quiet a m e1 hm hw
        · rename_i t hw
          split at h
          · rename_i x xe hx; cases h; exact .wake j a m e1 t x xe hm hw hx
          · cases h
        · cases h
    · cases h
  | ex a =>
    simp only [step] at h
    split at h
    · rename_i x e1 hx; cases h; exact .ex a x e1 hx
    · cases h

theorem exec_induct {c : Cfg S A E} {P : St S → List (Ev A E) → Prop} (hstep : ∀ s tr s' e, P s tr → Tr c s s' e → P s' (tr ++ e)) :
    ∀ (as : List (Act A)) (s : St S) (tr : List (Ev A E)) (s' : St S) (es : List (Ev A E)), P s tr → exec c s as = some (s', es) → P s' (tr ++ es)
  | [], s, tr, s', es, h, he => by simp only [exec, Option.some.injEq, Prod.mk.injEq] at he; obtain ⟨rfl, rfl⟩ := he; simpa using h
  | a :: as, s, tr, s', es, h, he => by
    obtain ⟨s1, e1, e2, h1, h2, rfl⟩ := exec_cons he
    rw [← List.append_assoc]
    exact exec_induct hstep as s1 (tr ++ e1) s' e2 (hstep _ _ _ _ h (tr_of_step h1)) h2

/-- events of the primitive -/
def mEvs : List (Ev A E) → List E
  | [] => []
  | .m e :: tr => e :: mEvs tr
  | _ :: tr => mEvs tr

/-- events of the executor -/
def exEvs : List (Ev A E) → List Executor.Ev
  | [] => []
  | .ex e :: tr => e :: exEvs tr
  | _ :: tr => exEvs tr

theorem mEvs_append (a b : List (Ev A E)) : mEvs (a ++ b) = mEvs a ++ mEvs b := by
  induction a with
  | nil => rfl
  | cons x a ih => cases x <;> simp [mEvs, ih]

theorem exEvs_append (a b : List (Ev A E)) : exEvs (a ++ b) = exEvs a ++ exEvs b := by
  induction a with
  | nil => rfl
  | cons x a ih => cases x <;> simp [exEvs, ih]

@[simp] theorem mEvs_m (l : List E) : mEvs (l.map (.m : E → Ev A E)) = l := by induction l <;> simp_all [mEvs]
@[simp] theorem mEvs_ex (l : List Executor.Ev) : mEvs (l.map (.ex : _ → Ev A E)) = [] := by induction l <;> simp_all [mEvs]
@[simp] theorem exEvs_m (l : List E) : exEvs (l.map (.m : E → Ev A E)) = [] := by induction l <;> simp_all [exEvs]
@[simp] theorem exEvs_ex (l : List Executor.Ev) : exEvs (l.map (.ex : _ → Ev A E)) = l := by induction l <;> simp_all [exEvs]
@[simp] theorem mEvs_act (a : A) (tr : List (Ev A E)) : mEvs (.act a :: tr) = mEvs tr := rfl
@[simp] theorem exEvs_act (a : A) (tr : List (Ev A E)) : exEvs (.act a :: tr) = exEvs tr := rfl

theorem mem_mEvs {x : E} {l : List (Ev A E)} : x ∈ mEvs l ↔ .m x ∈ l := by
  induction l with
  | nil => simp [mEvs]
  | cons y l ih => cases y <;> simp [mEvs, ih]

theorem mem_exEvs {x : Executor.Ev} {l : List (Ev A E)} : x ∈ exEvs l ↔ .ex x ∈ l := by
  induction l with
  | nil => simp [exEvs]
  | cons y l ih => cases y <;> simp [exEvs, ih]

/-- what holds of every execution of the primitive alone holds of its part in the composition -/
theorem proj_m {c : Cfg S A E} {R : S → List E → Prop} (h0 : R c.m0 []) (hs : ∀ s tr a s' e, R s tr → c.m s a = some (s', e) → R s' (tr ++ e))
    {s : St S} {tr : List (Ev A E)} (hx : Reach c s tr) : R s.m (mEvs tr) := by
  obtain ⟨as, hx⟩ := hx
  have := exec_induct (c := c) (P := fun s tr => R s.m (mEvs tr)) (by
    intro s tr s' e h ht
    cases ht with
    | quiet a m e hm hw => simpa [mEvs_append] using hs _ _ _ _ _ h hm
    | wake j a m e t x xe hm hw hx => simpa [mEvs_append] using hs _ _ _ _ _ h hm
    | ex a x e hx => simpa [mEvs_append] using h) as (init c) [] s tr h0 hx
  simpa using this

/-- the executor's part of an execution -/
theorem proj_ex {c : Cfg S A E} : ∀ {as : List (Act A)} {s s' : St S} {e : List (Ev A E)}, exec c s as = some (s', e) →
    ∃ acts, Executor.exec c.xc s.ex acts = some (s'.ex, exEvs e) ∧ Executor.dispCount acts = dispCount as := by
  intro as
  induction as with
  | nil => intro s s' e hx; simp only [exec, Option.some.injEq, Prod.mk.injEq] at hx; obtain ⟨rfl, rfl⟩ := hx; exact ⟨[], rfl, rfl⟩
  | cons a as ih =>
    intro s s' e hx
    obtain ⟨s1, e1, e2, h1, h2, rfl⟩ := exec_cons hx
    obtain ⟨acts, ha, hd⟩ := ih h2
    rw [exEvs_append]
    cases a with
    | m j a =>
      simp only [step] at h1
      split at h1
      · split at h1
        · cases h1
        · rename_i m e1 hm
          split at h1
          · cases h1; exact ⟨acts, by simpa using ha, hd⟩
          · rename_i t hw
            split at h1
            · rename_i x xe hst
              cases h1
              have he : xe = [] := by
                simp only [Executor.step] at hst
                split at hst
                · cases hst
                · split at hst <;> cases hst; rfl
              subst he
              simp only at ha
              exact ⟨.callWake j t :: acts, by simp [Executor.exec, hst, ha], by simp [Executor.dispCount, dispCount, hd]⟩
            · cases h1
          · cases h1
      · cases h1
    | ex a =>
      simp only [step] at h1
      split at h1
      · rename_i x e1 hst
        cases h1
        simp only at ha
        refine ⟨a :: acts, by simp only [exEvs_ex, Executor.exec, hst, ha], ?_⟩
        cases a <;> simp [Executor.dispCount, dispCount, hd]
      · cases h1

/-- bookkeeping on the trace: task `t` is not live / was polled last / was woken after it was polled last -/
inductive Tk where
  | off | live | owed
deriving DecidableEq

def track (c : Cfg S A E) (t : Nat) : Tk → List (Ev A E) → Tk
  | k, [] => k
  | k, .act _ :: tr => track c t k tr
  | k, .m e :: tr => track c t (if c.woke e = some t ∧ k = .live then .owed else k) tr
  | k, .ex e :: tr => track c t (if e = .polled t then .live else if e = .completed t then .off else k) tr

theorem track_append (c : Cfg S A E) (t : Nat) (a b : List (Ev A E)) : ∀ k, track c t k (a ++ b) = track c t (track c t k a) b := by
  induction a with
  | nil => intro k; rfl
  | cons x a ih => intro k; cases x <;> simp [track, ih]

theorem track_quiet {c : Cfg S A E} {t : Nat} {e : List E} (h : ∀ x ∈ e, c.woke x ≠ some t) : ∀ k, track c t k (e.map .m) = k := by
  induction e with
  | nil => intro k; rfl
  | cons x e ih =>
    intro k
    simp only [List.map_cons, track]
    rw [if_neg (fun h' => h x (List.mem_cons_self ..) h'.1)]
    exact ih (fun y hy => h y (List.mem_cons_of_mem _ hy)) k

theorem track_m {c : Cfg S A E} {t : Nat} (e : List E) : ∀ k, track c t k (e.map .m) = k ∨ (k = .live ∧ track c t k (e.map .m) = .owed) := by
  induction e with
  | nil => intro k; exact .inl rfl
  | cons x e ih =>
    intro k
    simp only [List.map_cons, track]
    split
    · rename_i h
      rcases ih .owed with h' | ⟨h', -⟩
      · exact .inr ⟨h.2, h'⟩
      · cases h'
    · exact ih k

theorem track_owed {c : Cfg S A E} {t : Nat} : ∀ {b : List (Ev A E)} {k : Tk}, k ≠ .off → .ex (.polled t) ∉ b → .ex (.completed t) ∉ b →
    (k = .owed ∨ ∃ e, c.woke e = some t ∧ .m e ∈ b) → track c t k b = .owed := by
  intro b
  induction b with
  | nil => intro k _ _ _ h; rcases h with h | ⟨e, -, h⟩; exact h; cases h
  | cons x b ih =>
    intro k hk h1 h2 h
    simp only [List.mem_cons, not_or] at h1 h2
    cases x with
    | act a =>
      simp only [track]
      refine ih hk h1.2 h2.2 ?_
      simpa using h
    | m e =>
      simp only [track]
      by_cases hw : c.woke e = some t
      · by_cases hk' : k = .live
        · rw [if_pos ⟨hw, hk'⟩]; exact ih (by simp) h1.2 h2.2 (.inl rfl)
        · rw [if_neg (fun h => hk' h.2)]
          have : k = .owed := by cases k <;> simp_all
          exact ih hk h1.2 h2.2 (.inl this)
      · rw [if_neg (fun h => hw h.1)]
        refine ih hk h1.2 h2.2 ?_
        rcases h with h | ⟨e', he, h⟩
        · exact .inl h
        · rcases List.mem_cons.mp h with h | h
          · cases h; exact absurd he hw
          · exact .inr ⟨e', he, h⟩
    | ex e =>
      simp only [track]
      rw [if_neg (fun h => h1.1 (by rw [h])), if_neg (fun h => h2.1 (by rw [h]))]
      exact ih hk h1.2 h2.2 (by simpa using h)

/-- the task is on the way from the call of its waker to its poll -/
def Chain (c : Executor.Cfg) (t : Nat) (x : Executor.St) : Prop := x.ub = true ∨ (∃ j, Executor.Spawning t j x) ∨ Executor.Due c t x

theorem polled_running {c : Executor.Cfg} {s s1 : Executor.St} {a : Executor.Act} {e h : List Executor.Ev} {acts : List Executor.Act} {t : Nat}
    (hx : Executor.exec c Executor.init acts = some (s, h)) (hs : Executor.step c s a = some (s1, e)) (hp : .polled t ∈ e) : s1.running t = true ∧ .completed t ∉ e := by
  have hx1 := Executor.exec_trans hx (show Executor.exec c s [a] = some (s1, e ++ []) by simp [Executor.exec, hs])
  have hb : s1.d.isBody t = true ∧ .completed t ∉ e := by
    have htr := Executor.tr_of_step hs
    generalize a.isDisp = fl at htr
    cases htr <;> simp_all [Executor.Dpc.isBody]
  exact ⟨Delay.body_running ⟨_, _, hx1⟩ hb.1, hb.2⟩

theorem track_ex {c : Cfg S A E} {t : Nat} {e : List Executor.Ev} : ∀ {k : Tk},
    (.polled t ∉ e → .completed t ∉ e → track c t k (e.map .ex) = k) ∧ (.polled t ∈ e → .completed t ∉ e → track c t k (e.map .ex) = .live) ∧
    (.polled t ∉ e → .completed t ∈ e → track c t k (e.map .ex) = .off) := by
  induction e with
  | nil => simp [track]
  | cons x e ih =>
    intro k
    simp only [List.map_cons, track]
    by_cases h1 : x = .polled t
    · subst h1
      rw [if_pos rfl]
      have := @ih .live
      by_cases hp : .polled t ∈ e <;> simp_all
    · rw [if_neg h1]
      by_cases h2 : x = .completed t
      · subst h2
        rw [if_pos rfl]
        have := @ih .off
        by_cases hp : .completed t ∈ e <;> simp_all
      · rw [if_neg h2]
        have := @ih k
        have h1' : ¬ .polled t = x := fun h => h1 h.symm
        have h2' : ¬ .completed t = x := fun h => h2 h.symm
        simpa [h1', h2'] using this

structure Inv (c : Cfg S A E) (t : Nat) (s : St S) (tr : List (Ev A E)) : Prop where
  ex : ∃ acts h, Executor.exec c.xc Executor.init acts = some (s.ex, h)
  run : track c t .off tr ≠ .off → s.ex.running t = true
  chain : track c t .off tr = .owed → Chain c.xc t s.ex

theorem chain_step {c : Executor.Cfg} {t : Nat} (ht : t ∈ c.ts) {x x1 : Executor.St} {a : Executor.Act} {e : List Executor.Ev} (hs : Executor.step c x a = some (x1, e))
    (h : Chain c t x) : .polled t ∈ e ∨ .completed t ∈ e ∨ Chain c t x1 := by
  have key : ∀ j, (Executor.Spawning t j x ∨ Executor.Due c t x) → .polled t ∈ e ∨ .completed t ∈ e ∨ Chain c t x1 := by
    intro j h
    rcases Delay.chain_ex (hid := j) ht hs h with h | h | h
    · rcases Delay.served_cases hs h with h | h | h
      · exact .inl h
      · exact .inr (.inl h)
      · exact .inr (.inr (.inl h))
    · exact .inr (.inr (.inr (.inl ⟨j, h⟩)))
    · exact .inr (.inr (.inr (.inr h)))
  rcases h with h | ⟨j, h⟩ | h
  · rw [Executor.ub_of_step hs] at h; cases h
  · exact key j (.inl h)
  · exact key 0 (.inr h)

theorem inv_step {c : Cfg S A E} {t : Nat} (ht : t ∈ c.xc.ts) {s s' : St S} {tr e : List (Ev A E)} (hI : Inv c t s tr) (hs : Tr c s s' e) : Inv c t s' (tr ++ e) := by
  obtain ⟨h1, h2, h3⟩ := hI
  cases hs with
  | quiet a m e hm hw =>
    have hq : track c t .off (tr ++ .act a :: e.map .m) = track c t .off tr := by
      rw [track_append]; simp only [track]
      refine track_quiet ?_ _
      intro x hx hxt
      have : t ∈ wakes c e := by
        simp only [wakes, List.mem_filter, List.mem_filterMap, decide_eq_true_eq]
        exact ⟨⟨x, hx, hxt⟩, ht⟩
      rw [hw] at this; cases this
    exact ⟨h1, by rw [hq]; exact h2, by rw [hq]; exact h3⟩
  | wake j a m e t' x xe hm hw hx =>
    have hxr := Delay.ex_reach h1 hx
    have hu := Executor.ub_of_step hx
    have hx' := hx
    simp only [Executor.step, hu, Bool.false_eq_true, if_false] at hx'
    split at hx'
    · rename_i hg
      cases hx'
      have hk : track c t .off (tr ++ .act a :: e.map .m) = track c t (track c t .off tr) (e.map .m) := by rw [track_append]; simp only [track]
      refine ⟨hxr, ?_, ?_⟩
      · rw [hk]
        intro h
        rcases track_m (c := c) (t := t) e (track c t .off tr) with h' | ⟨h', -⟩
        · rw [h'] at h; exact h2 h
        · exact h2 (by rw [h']; simp)
      · rw [hk]
        intro h
        rcases track_m (c := c) (t := t) e (track c t .off tr) with h' | ⟨h', -⟩
        · rw [h'] at h
          rcases chain_step ht hx (h3 h) with h | h | h
          · cases h
          · cases h
          · exact h
        · by_cases htt : t' = t
          · subst htt
            exact .inr (.inl ⟨j, h2 (by rw [h']; simp), .inr (.inr (.inl (by simp [Executor.upd_apply])))⟩)
          · rw [h', track_quiet] at h
            · cases h
            · intro y hy hyt
              have : t ∈ wakes c e := by
                simp only [wakes, List.mem_filter, List.mem_filterMap, decide_eq_true_eq]
                exact ⟨⟨y, hy, hyt⟩, ht⟩
              rw [hw] at this
              exact htt (List.mem_singleton.mp this).symm
    · cases hx'
  | ex a x e hx =>
    have hxr := Delay.ex_reach h1 hx
    obtain ⟨acts, h0, hr⟩ := h1
    have hk : track c t .off (tr ++ e.map .ex) = track c t (track c t .off tr) (e.map .ex) := track_append ..
    have hte := @track_ex S A E c t e (track c t .off tr)
    by_cases hp : .polled t ∈ e
    · obtain ⟨hrun, hc⟩ := polled_running hr hx hp
      rw [← hk] at hte
      have := hte.2.1 hp hc
      exact ⟨hxr, fun _ => hrun, fun h => by rw [this] at h; cases h⟩
    · by_cases hc : .completed t ∈ e
      · have := hte.2.2 hp hc
        exact ⟨hxr, fun h => absurd (hk.trans this) h, fun h => by rw [hk, this] at h; cases h⟩
      · have := hte.1 hp hc
        rw [← hk] at this
        refine ⟨hxr, fun h => ?_, fun h => ?_⟩
        · exact (Delay.running_step hx (h2 (by rw [← this]; exact h))).resolve_left hc
        · rcases chain_step ht hx (h3 (by rw [← this]; exact h)) with h | h | h
          · exact absurd h hp
          · exact absurd h hc
          · exact h

theorem reach_inv {c : Cfg S A E} {t : Nat} (ht : t ∈ c.xc.ts) {s : St S} {tr : List (Ev A E)} (hx : Reach c s tr) : Inv c t s tr := by
  obtain ⟨as, hx⟩ := hx
  have := exec_induct (c := c) (P := Inv c t) (fun s tr s' e h hs => inv_step ht h hs) as (init c) [] s tr
    ⟨⟨[], [], rfl⟩, by simp [track], by simp [track]⟩ hx
  simpa using this

/-- What the theorems of `Props` conclude about task `t` in state `s`: it is polled as soon as the dispatcher has had two rounds of processor time, whatever else happens. Exceptions: the body of `t` is just running and returns `Ready`; undefined behaviour, see C38. -/
def WillBePolled (c : Cfg S A E) (t : Nat) (s : St S) : Prop :=
  ∀ as2 s2 tr2, exec c s as2 = some (s2, tr2) → Executor.twoRounds c.xc ≤ dispCount as2 →
    .ex (.polled t) ∈ tr2 ∨ (Executor.InBody t s.ex.d ∧ .ex (.completed t) ∈ tr2) ∨ ∃ t', .ex (.badPoll t') ∈ tr2

/-- The latest poll of task `t` in the history: `b` is what happened since it began; the task has not ended. -/
def SinceLastPoll (t : Nat) (tr b : List (Ev A E)) : Prop :=
  ∃ a, tr = a ++ .ex (.polled t) :: b ∧ .ex (.polled t) ∉ b ∧ .ex (.completed t) ∉ b

/-- A waker called since the latest poll of its task: the task is due. -/
theorem woken_due {c : Cfg S A E} {t : Nat} (ht : t ∈ c.xc.ts) {s : St S} {tr b : List (Ev A E)} (hx : Reach c s tr) (hb : SinceLastPoll t tr b)
    (hw : ∃ e, c.woke e = some t ∧ .m e ∈ b) (hno : NoCall t s.ex) (hu : s.ex.ub = false) : Executor.Due c.xc t s.ex := by
  have hI := reach_inv ht hx
  obtain ⟨a, rfl, hnp, hnc⟩ := hb
  have htk : track c t .off (a ++ .ex (.polled t) :: b) = .owed := by
    rw [track_append]; simp only [track, if_true]
    exact track_owed (by simp) hnp hnc (.inr hw)
  rcases hI.chain htk with h | ⟨j, -, h⟩ | h
  · rw [hu] at h; cases h
  · obtain ⟨h1, h2, h3, h4⟩ := hno j
    rcases h with ⟨a, h⟩ | h | h | ⟨h, -⟩
    · exact absurd h (h4 a)
    · exact absurd h h3
    · exact absurd h h1
    · exact absurd h h2
  · exact h

theorem woken_polled {c : Cfg S A E} {t : Nat} (ht : t ∈ c.xc.ts) {s : St S} {tr b : List (Ev A E)} (hx : Reach c s tr) (hb : SinceLastPoll t tr b)
    (hw : ∃ e, c.woke e = some t ∧ .m e ∈ b) (hno : NoCall t s.ex) : WillBePolled c t s ∧ (Executor.Ready c.xc s.ex ∨ s.ex.ub = true) := by
  have hdue := woken_due ht hx hb hw hno
  obtain ⟨as, hx⟩ := hx
  obtain ⟨a1, hx1, -⟩ := proj_ex hx
  refine ⟨?_, ?_⟩
  · intro as2 s2 tr2 hx2 hfair
    obtain ⟨a2, hxe, hd⟩ := proj_ex hx2
    have hbd := Executor.reach_bound (c := c.xc) hx1 t
    have hu : s.ex.ub = false := by
      cases a2 with
      | nil => simp only [Executor.dispCount] at hd; simp only [← hd, Executor.twoRounds] at hfair; omega
      | cons a a2 =>
        obtain ⟨s1, e1, e2, h1, -, -⟩ := Executor.exec_cons hxe
        exact Executor.ub_of_step h1
    rcases Executor.due_exec ht (hdue hu) hxe (by omega) with h | h | ⟨t', h⟩
    · exact .inl (mem_exEvs.1 h)
    · by_cases hbody : Executor.InBody t s.ex.d
      · exact .inr (.inl ⟨hbody, mem_exEvs.1 h⟩)
      · exact .inl (mem_exEvs.1 (Executor.completed_polled hbody hxe h))
    · exact .inr (.inr ⟨t', mem_exEvs.1 h⟩)
  · cases hu : s.ex.ub with
    | true => exact .inr rfl
    | false => exact .inl (Executor.due_ready (hdue hu) hu)

end Verif.Await
