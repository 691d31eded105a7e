import Verif.EspSync.Model

/-! # C104: what holds for every primitive -/

namespace Verif.EspSync

open Verif
open Verif.Sync (Ev evP initAct SinceLastPoll sysEvs evP_append evP_m mem_evP_act mem_evP_m mem_evP_ex sysEvs_append sysEvs_m sysEvs_ex mem_sysEvs await_trans await_ex since_evP)

variable {S A E : Type}

/-! ## Specification -/

/-- number of accesses of dispatcher `d` -/
def accesses (d : Nat) : List (Act A) → Nat
  | [] => 0
  | .sys (.disp h _) :: as | .sys (.unpend h) :: as => accesses d as + (if h = d then 1 else 0)
  | _ :: as => accesses d as

/-- From `s2` to `s3`, and in the next step, no code of a lower priority than dispatcher `d` runs, except inside a critical section that was entered before `s2`, and none is started; `d` made fewer accesses than two rounds over its tasks. -/
structure Preempts (c : Cfg S A E) (d : Nat) (ts : List Nat) (s2 : St S) (as : List (Act A)) (s3 : St S) : Prop where
  /-- who runs has at least the priority of `d`, or is held up in a critical section entered before `s2` that blocks `d` -/
  next : ∀ a ev s4 cur, Step c s3 a ev s4 → a.own = true → Esp32.top s3.y.m.stack = some cur → c.sys.hw.prio d ≤ c.sys.hw.prio cur ∨
    ∃ x below, Esp32.BlockedAt c.sys.hw (c.sys.hw.prio d) x below ∧ (x :: below) <:+ s2.y.m.stack ∧ (x :: below) <:+ s3.y.m.stack
  /-- no handler of lower priority was started -/
  starts : ∀ h, .sys (.irq h) ∈ as → c.sys.hw.prio d ≤ c.sys.hw.prio h
  bound : accesses d as < Executor.twoRounds (c.sys.exec d ts)

/-! ## Proofs -/

theorem evP_ex (d : Nat) (ev : List (Nat × Executor.Ev)) : evP d (ev.map fun x => (.ex x.1 x.2 : Ev A E)) = (EspSystem.evsOf d ev).map .ex := by
  induction ev with
  | nil => rfl
  | cons x ev ih =>
    simp only [List.map_cons, evP, EspSystem.evsOf, List.filterMap_cons]
    split
    · simp only [List.map_cons]; rw [ih]; rfl
    · exact ih

theorem accesses_append (d : Nat) (a b : List (Act A)) : accesses d (a ++ b) = accesses d a + accesses d b := by
  induction a with
  | nil => simp [accesses]
  | cons x a ih =>
    cases x with
    | sys x => cases x <;> simp only [List.cons_append, accesses, ih] <;> omega
    | op x => simp only [List.cons_append, accesses, ih]

theorem Exec.trans {c : Cfg S A E} {s1 s2 s3 : St S} {as bs : List (Act A)} {t1 t2 : List (Ev A E)} (h1 : Exec c s1 as t1 s2) (h2 : Exec c s2 bs t2 s3) : Exec c s1 (as ++ bs) (t1 ++ t2) s3 := by
  induction h2 with
  | nil => simpa using h1
  | snoc h hs ih => rw [← List.append_assoc, ← List.append_assoc]; exact .snoc ih hs

theorem wake_noEv {c : EspSystem.Cfg} {s s' : EspSystem.St} {d t : Nat} {ev : List (Nat × Executor.Ev)} (h : EspSystem.Step c s (.wake d t) ev s') :
    ev = [] ∧ EspSystem.quiet c s ∧ EspSystem.noCall s ∧ ∃ ts e', c.tasks d = some ts ∧ Executor.step (c.exec d ts) (s.ex d) (.callWake (EspSystem.depth s.m.stack) t) = some (e', []) ∧ s'.ex = EspSystem.upd s.ex d e' := by
  cases h with
  | wake _ ts _ e' ev hq hc hu hd hs =>
    have he : ev = [] := by
      have hst := hs
      simp only [Executor.step] at hst
      split at hst
      · cases hst
      · split at hst <;> cases hst; rfl
    subst he
    exact ⟨rfl, hq, hc, ts, e', hd, hs, rfl⟩

/-- what one step is to the rest of the application -/
theorem sys_step {c : Cfg S A E} {s s' : St S} {a : Act A} {ev : List (Ev A E)} (h : Step c s a ev s') :
    ∃ as, EspSystem.Exec c.sys s.y as (sysEvs ev) s'.y ∧ (∀ h, .irq h ∈ as ↔ .sys (.irq h) ∈ [a]) ∧ ∀ d, EspSystem.accesses d as = accesses d [a] := by
  cases h with
  | sys a ev y' h =>
    refine ⟨[a], by rw [sysEvs_ex]; exact .snoc (.nil _) h, by simp, ?_⟩
    intro d; cases a <;> rfl
  | op a m' e hq hc hu hm hw => exact ⟨[], by simp only [sysEvs, sysEvs_m]; exact .nil _, by simp, fun d => rfl⟩
  | wake a m' e d ts t ev y' hm hw hd ht hy =>
    obtain ⟨rfl, -⟩ := wake_noEv hy
    exact ⟨[.wake d t], by simp only [sysEvs, sysEvs_m]; exact .snoc (.nil _) hy, by simp, fun d => rfl⟩

theorem sys_exec {c : Cfg S A E} {s s' : St S} {as : List (Act A)} {tr : List (Ev A E)} (h : Exec c s as tr s') :
    ∃ bs, EspSystem.Exec c.sys s.y bs (sysEvs tr) s'.y ∧ (∀ h, .irq h ∈ bs ↔ .sys (.irq h) ∈ as) ∧ ∀ d, EspSystem.accesses d bs = accesses d as := by
  induction h with
  | nil => exact ⟨[], .nil _, by simp, fun _ => rfl⟩
  | snoc h hs ih =>
    obtain ⟨bs, h1, h2, h3⟩ := ih
    obtain ⟨bs', k1, k2, k3⟩ := sys_step hs
    refine ⟨bs ++ bs', by rw [sysEvs_append]; exact h1.trans k1, ?_, ?_⟩
    · intro h; simp only [List.mem_append, h2, k2]
    · intro d; rw [EspSystem.accesses_append, accesses_append, h3, k3]

theorem filter_called {c : Cfg S A E} {d : Nat} {ts : List Nat} {e : List E} (h : ∀ t ∈ called c e, t ∉ ts) : Await.wakes (c.await d ts) e = [] := by
  simp only [Await.wakes, List.filter_eq_nil_iff]
  intro t ht hd
  exact h t ht (of_decide_eq_true hd)

/-- what one step is to the primitive and the executors of dispatcher `d` -/
theorem await_step {c : Cfg S A E} {t0 : Nat} (hwf : WellFormed c t0) {s s' : St S} {a : Act A} {ev : List (Ev A E)} (hi : EspSystem.Inv c.sys t0 s.y) (h : Step c s a ev s') {d : Nat} {ts : List Nat} (hd : c.sys.tasks d = some ts) :
    ∃ acts, Await.exec (c.await d ts) ⟨s.m, s.y.ex d⟩ acts = some (⟨s'.m, s'.y.ex d⟩, evP d ev) := by
  have one : ∀ {s s1 : Await.St S} {a : Await.Act A} {e}, Await.step (c.await d ts) s a = some (s1, e) → Await.exec (c.await d ts) s [a] = some (s1, e) := by
    intro s s1 a e h; simp [Await.exec, h]
  cases h with
  | sys a ev y' h =>
    obtain ⟨acts, h1, -⟩ := EspSystem.proj_step hi h hd
    refine ⟨acts.map .ex, ?_⟩
    rw [evP_ex]
    exact await_ex h1
  | op a m' e hq hc hu hm hw =>
    refine ⟨[.m (EspSystem.depth s.y.m.stack) a], ?_⟩
    have h1 := filter_called (c := c) (d := d) (ts := ts) (e := e) (fun t ht => hw t ht d ts hd)
    have h2 := hc d
    simp only [evP, evP_m]
    apply one
    simp only [Await.step, h2, if_true, Cfg.await, hm]
    have : Await.wakes { m := c.m, m0 := c.m0, woke := c.woke, xc := c.sys.exec d ts } e = [] := h1
    simp only [this]
  | wake a m' e d' ts' t ev y' hm hw hd' ht hy =>
    obtain ⟨rfl, hq, hc, ts'', e', hd'', hs, hex⟩ := wake_noEv hy
    rw [hd'] at hd''; cases hd''
    refine ⟨[.m (EspSystem.depth s.y.m.stack) a], ?_⟩
    have h2 := hc d
    simp only [evP, evP_m]
    apply one
    simp only [Await.step, h2, if_true, Cfg.await, hm, hex]
    by_cases e0 : d' = d
    · subst e0
      rw [hd] at hd'; cases hd'
      have : Await.wakes { m := c.m, m0 := c.m0, woke := c.woke, xc := c.sys.exec d' ts } e = [t] := by
        show List.filter _ (called c e) = [t]
        rw [hw]
        simp [EspSystem.Cfg.exec, ht]
      simp only [this, hs, EspSystem.upd_same]
    · have h1 := filter_called (c := c) (d := d) (ts := ts) (e := e) (fun t' ht' hin => by
        rw [hw] at ht'
        cases List.mem_singleton.1 ht'
        exact e0 (hwf.one d' d ts' ts _ hd' hd ht hin))
      have : Await.wakes { m := c.m, m0 := c.m0, woke := c.woke, xc := c.sys.exec d ts } e = [] := h1
      simp only [this, EspSystem.upd_ne _ _ (Ne.symm e0)]

theorem inv_sync {c : Cfg S A E} {t0 : Nat} (hwf : WellFormed c t0) {s s' : St S} {as : List (Act A)} {tr : List (Ev A E)} (hi : EspSystem.Inv c.sys t0 s.y) (h : Exec c s as tr s') : EspSystem.Inv c.sys t0 s'.y := by
  obtain ⟨bs, h1, -⟩ := sys_exec h
  exact EspSystem.inv_exec hwf.hw hi h1

theorem await_exec {c : Cfg S A E} {t0 : Nat} (hwf : WellFormed c t0) {s s' : St S} {as : List (Act A)} {tr : List (Ev A E)} (hi : EspSystem.Inv c.sys t0 s.y) (h : Exec c s as tr s') {d : Nat} {ts : List Nat} (hd : c.sys.tasks d = some ts) :
    ∃ acts, Await.exec (c.await d ts) ⟨s.m, s.y.ex d⟩ acts = some (⟨s'.m, s'.y.ex d⟩, evP d tr) := by
  induction h with
  | nil => exact ⟨[], rfl⟩
  | snoc h hs ih =>
    obtain ⟨acts, h1⟩ := ih
    obtain ⟨acts', h2⟩ := await_step hwf (inv_sync hwf hi h) hs hd
    exact ⟨acts ++ acts', by rw [evP_append]; exact await_trans h1 h2⟩

/-- the history of the primitive and of dispatcher `d` -/
theorem await_reach {c : Cfg S A E} {t0 : Nat} (hwf : WellFormed c t0) {st s : St S} {tr0 tr : List (Ev A E)} {as : List (Act A)} (hst : Start c t0 st tr0) (hx : Exec c st as tr s) {d : Nat} {ts : List Nat} (hd : c.sys.tasks d = some ts) :
    Await.Reach (c.await d ts) ⟨s.m, s.y.ex d⟩ (evP d (tr0 ++ tr)) := by
  obtain ⟨acts0, -, h0⟩ := hst.hist d ts hd
  obtain ⟨acts, h1⟩ := await_exec hwf (EspSystem.inv_start hwf.thread hst.y) hx hd
  exact ⟨acts0 ++ acts, by rw [evP_append]; exact await_trans h0 h1⟩

/-- **The waker of a task was called since the latest poll of the task**: until it is polled (or completes), nothing of lower priority runs. -/
theorem woken_preempts {c : Cfg S A E} {t0 : Nat} (hwf : WellFormed c t0) {st s2 s3 : St S} {tr0 tr1 tr2 b : List (Ev A E)} {as1 as2 : List (Act A)} {d t : Nat} {ts : List Nat} (hst : Start c t0 st tr0) (hx1 : Exec c st as1 tr1 s2)
    (hd : c.sys.tasks d = some ts) (ht : t ∈ ts) (hp : 1 ≤ c.sys.hw.prio d) (hb : SinceLastPoll d t (tr0 ++ tr1) b) (hw : ∃ e, c.woke e = some t ∧ .m e ∈ evP d b) (hno : Await.NoCall t (s2.y.ex d)) (hx2 : Exec c s2 as2 tr2 s3)
    (hpoll : .ex d (.polled t) ∉ tr2) (hcomp : .ex d (.completed t) ∉ tr2) (hbad : ∀ t', .ex d (.badPoll t') ∉ tr0 ++ tr1 ++ tr2) : Preempts c d ts s2 as2 s3 := by
  have hi := EspSystem.inv_start hwf.thread hst.y
  have hi2 := inv_sync hwf hi hx1
  have hr := await_reach hwf hst hx1 hd
  have hreach : ∃ acts e, Executor.exec (c.sys.exec d ts) Executor.init acts = some (s2.y.ex d, e) ∧ ∀ t', .badPoll t' ∉ e := by
    obtain ⟨as, hr⟩ := hr
    obtain ⟨acts, h1, -⟩ := Await.proj_ex hr
    refine ⟨acts, _, h1, fun t' h => hbad t' (List.mem_append_left _ ?_)⟩
    exact mem_evP_ex.1 (Await.mem_exEvs.1 h)
  obtain ⟨acts, e, hacts, hbp⟩ := hreach
  have hub : (s2.y.ex d).ub = false := (Executor.ub_exec rfl hacts).resolve_right (fun ⟨t', h⟩ => hbp t' h)
  have hdue : Executor.Due (c.sys.exec d ts) t (s2.y.ex d) := Await.woken_due (c := c.await d ts) ht hr (since_evP hb) hw hno hub
  obtain ⟨bs, hy, hirq, hacc⟩ := sys_exec hx2
  have serve : ∀ as' tr' s', EspSystem.Exec c.sys s2.y as' tr' s' → (∃ as'' tr'', bs = as' ++ as'' ∧ sysEvs tr2 = tr' ++ tr'') → Executor.Ready (c.sys.exec d ts) (s'.ex d) ∧ EspSystem.accesses d as' < Executor.twoRounds (c.sys.exec d ts) := by
    rintro as' tr' s' hx' ⟨as'', tr'', -, hte⟩
    have sub : ∀ {e}, (d, e) ∈ tr' → .ex d e ∈ tr2 := fun h => mem_sysEvs.1 (by rw [hte]; exact List.mem_append_left _ h)
    exact EspSystem.due_serve hwf.hw hd ht hi2 ⟨acts, e, hacts⟩ hdue hub hx' (fun h => hpoll (sub h)) (fun h => hcomp (sub h)) (fun t' h => hbad t' (List.mem_append_right _ (sub h)))
  obtain ⟨h1, h2⟩ := EspSystem.preempts_quiet hwf.hw hwf.low hp hi2 hy (fun as' tr' s' hx' hpre => EspSystem.ready_urgent (EspSystem.inv_exec hwf.hw hi2 hx') hd hp (serve as' tr' s' hx' hpre).1)
  refine ⟨?_, fun h hm => h2 h ((hirq h).2 hm), by rw [← hacc]; exact (serve bs _ _ hy ⟨[], [], by simp, by simp⟩).2⟩
  intro a ev s4 cur hs hown htop
  refine h1 cur ?_ htop
  cases hs with
  | sys a ev y' h => exact EspSystem.own_quiet h hown
  | op a m' e hq hc hu hm hw => exact hq
  | wake a m' e d ts t ev y' hm hw hd ht hy => exact (wake_noEv hy).2.1

/-- If nothing of lower priority is inside a critical section blocking the task, no code of lower priority makes a step before the task is polled. -/
theorem runs_first {c : Cfg S A E} {d : Nat} {ts : List Nat} {s2 s3 : St S} {as : List (Act A)} (h : Preempts c d ts s2 as s3) (hb : ¬ Esp32.Blocked c.sys.hw (c.sys.hw.prio d) s2.y.m.stack) {a : Act A} {ev : List (Ev A E)} {s4 : St S} {cur : Nat}
    (hs : Step c s3 a ev s4) (hown : a.own = true) (ht : Esp32.top s3.y.m.stack = some cur) : c.sys.hw.prio d ≤ c.sys.hw.prio cur := by
  rcases h.next a ev s4 cur hs hown ht with h | ⟨x, b, h1, h2, -⟩
  · exact h
  · exact absurd ⟨x, b, h2, h1⟩ hb

end Verif.EspSync
