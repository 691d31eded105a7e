import Verif.TimerQueue.Inv

/-! # C27–C29 -/

namespace Verif.TimerQueue

/-! ## C27 -/

/-- **C27** The handler takes out an entry only when its release time has been reached; it takes the earliest one; all other
entries stay as they are. For every interleaving. -/
theorem C27_pop_expired {b : Cfg} (hw : 0 < b.w) {s s' : St} {tr ev : List Ev} {a : Act} {e : E} {n : Nat} (h : Reach b s tr)
    (hs : step b s a = some (s', ev)) (hm : Ev.popped e n ∈ ev) :
    n = s.now ∧ e.time ≤ s.now ∧ e.time = s.inst e.id ∧ (∀ x ∈ s.q, e.time ≤ x.time) ∧ s.q = e :: s'.q ∧ s'.h = .h2 e.wk := by
  have hI := (reach_inv hw h).1
  cases tr_of_step hs <;> simp at hm
  rename_i e' q hh hq hr
  obtain ⟨rfl, rfl⟩ := hm
  have hmem : e ∈ s.q := by rw [hq]; exact List.mem_cons_self
  rw [atLeast_eq hw (hI.win e hmem)] at hr
  refine ⟨rfl, by simpa using hr, hI.time e hmem, ?_, hq, rfl⟩
  have hso := hI.sorted
  intro x hx
  rw [hq] at hso hx
  rcases List.mem_cons.1 hx with rfl | hx
  · exact Nat.le_refl _
  · exact (List.pairwise_cons.1 hso).1 x hx

/-- Actions of the handler and of the clock. -/
def Act.solo : Act → Bool
  | .hgo | .arm _ | .tick _ _ _ => true
  | _ => false

/-- Entries taken out in a history, in order. -/
def popsOf : List Ev → List E
  | [] => []
  | .popped e _ :: tr => e :: popsOf tr
  | _ :: tr => popsOf tr

/-- Wakers woken in a history, in order. -/
def wakesOf : List Ev → List Nat
  | [] => []
  | .woke w :: tr => w :: wakesOf tr
  | _ :: tr => wakesOf tr

theorem popsOf_append (a c : List Ev) : popsOf (a ++ c) = popsOf a ++ popsOf c := by
  induction a with
  | nil => rfl
  | cons x a ih => cases x <;> simp [popsOf, ih]

theorem wakesOf_append (a c : List Ev) : wakesOf (a ++ c) = wakesOf a ++ wakesOf c := by
  induction a with
  | nil => rfl
  | cons x a ih => cases x <;> simp [wakesOf, ih]

/-- The waker the handler is about to wake. -/
def Hpc.waking : Hpc → List Nat
  | .h2 w => [w]
  | _ => []

structure Solo (b : Cfg) (s0 s : St) (tr : List Ev) : Prop where
  inv : Inv b s
  split : s0.q = popsOf tr ++ s.q
  wakes : wakesOf tr ++ s.h.waking = (popsOf tr).map (·.wk)
  inst : ∀ t, s.h.inst? = some t → ∃ e q, s.q = e :: q ∧ e.time = t
  h5 : s.h = .h5 → s.q = []
  en3 : ∀ t, s.h = .h3b t → s.en = true
  req : ∀ t, s.h = .h4 t → s.req = some t ∧ s.en = true
  times : ∀ e n, Ev.popped e n ∈ tr → e.time ≤ n ∧ n ≤ s.now
  le : s0.now ≤ s.now

theorem solo_step {b : Cfg} (hw : 0 < b.w) {s0 s s' : St} {tr e : List Ev} {a : Act} (ha : a.solo = true) (h : Solo b s0 s tr)
    (hh : s'.h ≠ .idle) (hs : step b s a = some (s', e)) : Solo b s0 s' (tr ++ e) := by
  obtain ⟨h1, h2, h3, h4, h5, h9, h6, h7, h8⟩ := h
  have hi := inv_step hw h1 hs
  have hp := popsOf_append tr e
  have hwk := wakesOf_append tr e
  cases tr_of_step hs with
  | tick m o p g1 g2 g3 =>
    refine ⟨hi, by simpa using h2, by simpa using h3, h4, h5, h9, h6, ?_, by dsimp only; omega⟩
    · intro e n hm; have := h7 e n (by simpa using hm); exact ⟨this.1, by dsimp only; omega⟩
  | clear g => exact ⟨hi, by simpa using h2, by simpa [g, Hpc.waking] using h3, by simp [Hpc.inst?], by simp, by simp, by simp, by simpa using h7, h8⟩
  | onIrq g => exact ⟨hi, by simpa using h2, by simpa [g, Hpc.waking] using h3, by simp [Hpc.inst?], by simp, by simp, by simp, by simpa using h7, h8⟩
  | popEmpty g hq => exact ⟨hi, by simpa using h2, by simpa [g, Hpc.waking] using h3, by simp [Hpc.inst?], by simp [hq], by simp, by simp, by simpa using h7, h8⟩
  | popYes e q g hq hr =>
    have hmem : e ∈ s.q := by rw [hq]; exact List.mem_cons_self
    rw [atLeast_eq hw (h1.win e hmem)] at hr
    refine ⟨hi, ?_, ?_, by simp [Hpc.inst?], by simp, by simp, by simp, ?_, h8⟩
    · rw [hp, h2, hq]; simp [popsOf]
    · rw [hp, hwk]; simp [popsOf, wakesOf, Hpc.waking]; simpa [g, Hpc.waking] using h3
    · intro x n hm
      rcases List.mem_append.1 hm with hm | hm
      · exact h7 x n hm
      · simp at hm; obtain ⟨rfl, rfl⟩ := hm; exact ⟨by simpa using hr, Nat.le_refl _⟩
  | popNo e q g hq hr =>
    refine ⟨hi, by simpa using h2, by simpa [g, Hpc.waking] using h3, ?_, by simp, by simp, by simp, by simpa using h7, h8⟩
    intro t ht; simp [Hpc.inst?] at ht; exact ⟨e, q, hq, ht⟩
  | wake wk g =>
    refine ⟨hi, by rw [hp]; simpa [popsOf] using h2, ?_, by simp [Hpc.inst?], by simp, by simp, by simp, ?_, h8⟩
    · rw [hp, hwk]; simpa [popsOf, wakesOf, g, Hpc.waking] using h3
    · intro x n hm; exact h7 x n (by simpa using hm)
  | enable t g =>
    refine ⟨hi, by simpa using h2, by simpa [g, Hpc.waking] using h3, ?_, by simp, by simp, by simp, by simpa using h7, h8⟩
    intro t' ht; simp [Hpc.inst?] at ht; subst ht; exact h4 t (by simp [g, Hpc.inst?])
  | again t g hr => exact ⟨hi, by simpa using h2, by simpa [g, Hpc.waking] using h3, by simp [Hpc.inst?], by simp, by simp, by simp, by simpa using h7, h8⟩
  | finish t g hr => exact absurd rfl hh
  | disable g => exact absurd rfl hh
  | arm c t g hc =>
    refine ⟨hi, by simpa using h2, by simpa [g, Hpc.waking] using h3, ?_, by simp, by simp, ?_, by simpa using h7, h8⟩
    · intro t' ht; simp [Hpc.inst?] at ht; subst ht; exact h4 t (by simp [g, Hpc.inst?])
    · intro t' ht; simp at ht; subst ht; exact ⟨rfl, h9 t g⟩
  | _ => simp [Act.solo] at ha

theorem solo_idle {b : Cfg} : ∀ (as : List Act) (s : St), s.h = .idle → (∀ a ∈ as, a.solo = true) → exec b s (as ++ [.hgo]) = none
  | [], s, h, _ => by simp [exec, step, h]
  | a :: as, s, h, ha => by
    simp only [List.cons_append, exec]
    cases hs : step b s a with
    | none => rfl
    | some r =>
      obtain ⟨s1, e⟩ := r
      have h1 : s1.h = .idle := by
        have := ha a List.mem_cons_self
        cases tr_of_step hs <;> simp_all [Act.solo]
      simp [solo_idle as s1 h1 (fun x hx => ha x (List.mem_cons_of_mem _ hx))]

theorem solo_exec {b : Cfg} (hw : 0 < b.w) {s0 s' : St} : ∀ (as : List Act) (s : St) (tr1 es : List Ev), Solo b s0 s tr1 → s.h ≠ .idle →
    (∀ a ∈ as, a.solo = true) → exec b s (as ++ [.hgo]) = some (s', es) →
    ∃ s1 tr2 e2, Solo b s0 s1 (tr1 ++ tr2) ∧ step b s1 .hgo = some (s', e2) ∧ es = tr2 ++ e2
  | [], s, tr1, es, h, _, _, he => by
    simp only [List.nil_append, exec] at he
    split at he
    · cases he
    · rename_i s2 e2 hs; cases he; exact ⟨s, [], e2, by simpa using h, hs, by simp⟩
  | a :: as, s, tr1, es, h, hn, ha, he => by
    simp only [List.cons_append, exec] at he
    split at he
    · cases he
    · rename_i s2 e2 hs
      split at he
      · cases he
      · rename_i s3 e3 hs3
        cases he
        have has := fun x hx => ha x (List.mem_cons_of_mem a hx)
        by_cases hidle : s2.h = .idle
        · rw [solo_idle as s2 hidle has] at hs3; cases hs3
        · obtain ⟨s1, tr2, e4, h1, h2, h3⟩ := solo_exec hw as s2 (tr1 ++ e2) e3 (solo_step hw (ha a List.mem_cons_self) h hidle hs) hidle has hs3
          exact ⟨s1, e2 ++ tr2, e4, by simpa using h1, h2, by simp [h3]⟩

/-- **C27** A complete run of the handler that is not preempted (the clock may advance arbitrarily between its steps): the entries taken out are a
prefix of the queue, their tasks are woken in this order, each had expired when it was taken out, every entry that remains is in
the future when the handler returns (so every expired one has been woken), and then either the queue is empty and the timer is disabled, or the compare was
set to exactly the release time of the earliest remaining entry, with the timer enabled. -/
theorem C27_handler_run {b : Cfg} (hw : 0 < b.w) {s s' : St} {tr0 tr : List Ev} {as : List Act} (hr : Reach b s tr0) (hh : s.h = .h0)
    (hsolo : ∀ a ∈ as, a.solo = true) (he : exec b s (as ++ [.hgo]) = some (s', tr)) (hend : s'.h = .idle) :
    s.q = popsOf tr ++ s'.q ∧ wakesOf tr = (popsOf tr).map (·.wk) ∧ (∀ e n, Ev.popped e n ∈ tr → e.time ≤ n) ∧
    (∀ e ∈ s'.q, s'.now < e.time) ∧
    ((s'.q = [] ∧ s'.en = b.noop) ∨ ∃ e q, s'.q = e :: q ∧ s'.req = some e.time ∧ s'.en = true) := by
  have h0 : Solo b s s [] := ⟨(reach_inv hw hr).1, rfl, by simp [hh, wakesOf, popsOf, Hpc.waking], by simp [hh, Hpc.inst?], by simp [hh],
    by simp [hh], by simp [hh], by simp, Nat.le_refl _⟩
  obtain ⟨s1, tr2, e2, h1, h2, rfl⟩ := solo_exec hw as s [] tr h0 (by simp [hh]) hsolo he
  simp only [List.nil_append] at h1
  obtain ⟨g1, g2, g3, g4, g5, g9, g6, g7, g8⟩ := h1
  cases tr_of_step h2 with
  | finish t g hrd =>
    obtain ⟨e, q, hq, het⟩ := g4 t (by simp [g, Hpc.inst?])
    obtain ⟨k1, k2⟩ := g6 t g
    have hn := g1.hwin t (by simp [g, Hpc.inst?])
    rw [atLeast_eq hw hn] at hrd
    have hlt : s1.now < t := by simpa using hrd
    refine ⟨by simpa using g2, by simpa [g, Hpc.waking] using g3, fun e n hm => (g7 e n (by simpa using hm)).1, ?_,
      .inr ⟨e, q, hq, by rw [het]; exact k1, k2⟩⟩
    intro x hx
    have hx : x ∈ s1.q := hx
    have hso := g1.sorted
    rw [hq] at hx hso
    show s1.now < x.time
    rcases List.mem_cons.1 hx with rfl | hx
    · omega
    · have := (List.pairwise_cons.1 hso).1 x hx; omega
  | disable g =>
    have hq := g5 g
    exact ⟨by simpa using g2, by simpa [g, Hpc.waking] using g3, fun e n hm => (g7 e n (by simpa using hm)).1,
      by simp [hq], .inl ⟨hq, rfl⟩⟩
  | clear g => simp at hend
  | onIrq g => simp at hend
  | popEmpty g hq => simp at hend
  | popYes e q g hq hr => simp at hend
  | popNo e q g hq hr => simp at hend
  | wake wk g => simp at hend
  | enable t g => simp at hend
  | again t g hr => simp at hend

/-- **C27** In the same run, every entry whose release time is reached when the handler returns has been woken. -/
theorem C27_all_expired_woken {b : Cfg} (hw : 0 < b.w) {s s' : St} {tr0 tr : List Ev} {as : List Act} (hr : Reach b s tr0) (hh : s.h = .h0)
    (hsolo : ∀ a ∈ as, a.solo = true) (he : exec b s (as ++ [.hgo]) = some (s', tr)) (hend : s'.h = .idle) :
    ∀ e ∈ s.q, (e.time ≤ s'.now ↔ e ∈ popsOf tr) ∧ (e.time ≤ s'.now → e.wk ∈ wakesOf tr) := by
  obtain ⟨h1, h2, h3, h4, -⟩ := C27_handler_run hw hr hh hsolo he hend
  have hpop : ∀ (tr : List Ev) e, e ∈ popsOf tr → ∃ n, Ev.popped e n ∈ tr := by
    intro tr
    induction tr with
    | nil => intro e h; cases h
    | cons x tr ih =>
      intro e h
      cases x <;> simp only [popsOf] at h
      case popped e' n =>
        rcases List.mem_cons.1 h with rfl | h
        · exact ⟨n, List.mem_cons_self⟩
        · obtain ⟨n, hn⟩ := ih e h; exact ⟨n, List.mem_cons_of_mem _ hn⟩
      all_goals obtain ⟨n, hn⟩ := ih e h; exact ⟨n, List.mem_cons_of_mem _ hn⟩
  have h0 : Solo b s s [] := ⟨(reach_inv hw hr).1, rfl, by simp [hh, wakesOf, popsOf, Hpc.waking], by simp [hh, Hpc.inst?], by simp [hh],
    by simp [hh], by simp [hh], by simp, Nat.le_refl _⟩
  obtain ⟨s1, tr2, e2, g1, g2, rfl⟩ := solo_exec hw as s [] tr h0 (by simp [hh]) hsolo he
  have hnow : s'.now = s1.now ∧ popsOf e2 = [] := by cases tr_of_step g2 <;> simp_all [popsOf]
  intro e hm
  have key : e.time ≤ s'.now ↔ e ∈ popsOf (tr2 ++ e2) := by
    constructor
    · intro ht
      rw [h1] at hm
      rcases List.mem_append.1 hm with hm | hm
      · exact hm
      · have := h4 e hm; omega
    · intro hp
      rw [popsOf_append, hnow.2, List.append_nil] at hp
      obtain ⟨n, hn⟩ := hpop tr2 e hp
      have := g1.times e n (by simpa using hn)
      omega
  exact ⟨key, fun ht => by rw [h2]; exact List.mem_map.2 ⟨e, key.1 ht, rfl⟩⟩

/-- **C27** For every interleaving (tasks that preempt the handler may insert and cancel): when the handler returns, the queue is
empty and the timer was disabled, or the handler will be entered again (interrupt pending, or a task that inserted a new head is about to pend it), or every waiting entry is in
the future and the compare is enabled and armed in the future for a time not later than the earliest one. -/
theorem C27_handler_returns {b : Cfg} (hw : 0 < b.w) {s s' : St} {tr ev : List Ev} (h : Reach b s tr)
    (hs : step b s .hgo = some (s', ev)) (hend : s'.h = .idle) :
    (s'.q = [] ∧ s'.en = b.noop) ∨ s'.irq = true ∨ AboutToPend s' ∨
      ((∀ e ∈ s'.q, s'.now < e.time) ∧ s'.en = true ∧ ∃ c, s'.cmp = some c ∧ s'.now < c ∧ ∀ e ∈ s'.q, c ≤ e.time + b.sl) := by
  obtain ⟨hI, hA⟩ := reach_inv hw h
  have hA' := arm_step hw hI hA hs
  cases tr_of_step hs with
  | finish t g hrd =>
    have hn := hI.hwin t (by simp [g, Hpc.inst?])
    rw [atLeast_eq hw hn] at hrd
    have hlt : s.now < t := by simpa using hrd
    simp only [Arm, g] at hA
    rcases hA with ⟨h0, h | h | ⟨h1, h2⟩⟩
    · exact .inr (.inl (by simp [St.irq, h]))
    · exact .inr (.inr (.inl h))
    · rcases h2 with h2 | h2 | h2
      · omega
      · exact .inr (.inl h2)
      · exact .inr (.inr (.inr ⟨fun e he => Nat.lt_of_lt_of_le hlt (h1 e he), h2⟩))
  | disable g =>
    simp only [Arm, g] at hA
    rcases hA with h | h | h
    · exact .inl ⟨h, rfl⟩
    · exact .inr (.inl (by simp [St.irq, h]))
    · exact .inr (.inr (.inl h))
  | clear g => simp at hend
  | onIrq g => simp at hend
  | popEmpty g hq => simp at hend
  | popYes e q g hq hr => simp at hend
  | popNo e q g hq hr => simp at hend
  | wake wk g => simp at hend
  | enable t g => simp at hend
  | again t g hr => simp at hend

/-- **C27** A delay that was woken is ready when polled: its instant has been reached. -/
theorem C27_woken_is_ready {b : Cfg} (hw : 0 < b.w) {s : St} {tr : List Ev} (h : Reach b s tr) {i : Nat}
    (hp : s.lk i = some true) : s.inst i ≤ s.now := by
  refine (reach_induct (P := fun s tr => Reach b s tr ∧ ∀ i, s.lk i = some true → s.inst i ≤ s.now) ⟨⟨[], rfl⟩, by simp [init]⟩ ?_ h).2 i hp
  rintro s tr a s' e ⟨hR, hP⟩ hs
  refine ⟨hR.step hs, ?_⟩
  have hI := (reach_inv hw hR).1
  cases tr_of_step hs with
  | popYes e q g hq hr =>
    have hmem : e ∈ s.q := by rw [hq]; exact List.mem_cons_self
    rw [atLeast_eq hw (hI.win e hmem)] at hr
    have ht := hI.time e hmem
    intro j hj
    simp only [set_apply] at hj
    split at hj
    · rename_i h; subst h; rw [← ht]; simpa using hr
    · exact hP j hj
  | tick => intro j hj; exact Nat.le_succ_of_le (hP j hj)
  | _ => grind

/-- **C27** In every history, preempted in any way: the wakers woken are exactly those of the entries taken out, in the order in which they were taken out (the last one may still
have to be woken by the running handler). -/
theorem C27_woken_exactly_popped {b : Cfg} {s : St} {tr : List Ev} (h : Reach b s tr) :
    (popsOf tr).map (·.wk) = wakesOf tr ∨ ∃ wk, s.h = .h2 wk ∧ (popsOf tr).map (·.wk) = wakesOf tr ++ [wk] := by
  have : wakesOf tr ++ s.h.waking = (popsOf tr).map (·.wk) := by
    refine reach_induct (P := fun s tr => wakesOf tr ++ s.h.waking = (popsOf tr).map (·.wk)) rfl ?_ h
    intro s tr a s' e ih hs
    rw [popsOf_append, wakesOf_append]
    cases tr_of_step hs <;> simp_all [popsOf, wakesOf, Hpc.waking] <;> (try split <;> simp_all [popsOf, wakesOf, Hpc.waking])
  cases hh : s.h with
  | h2 wk => exact .inr ⟨wk, rfl, by rw [← this, hh]; rfl⟩
  | _ => left; rw [← this, hh]; simp [Hpc.waking]

/-- **C27** The waker of an entry is the one with which its delay was polled: every entry waiting in the queue, and every entry taken out by the handler, comes from a poll of that delay with that waker. -/
theorem C27_waker_of_poll {b : Cfg} {s : St} {tr : List Ev} {as : List Act} (h : exec b (init b.noop) as = some (s, tr)) :
    (∀ e ∈ s.q, .poll e.id e.wk ∈ as) ∧ ∀ e n, .popped e n ∈ tr → .poll e.id e.wk ∈ as := by
  have key : ∀ (as : List Act) (s0 s : St) (tr0 tr : List Ev) (as0 : List Act),
      (∀ e ∈ s0.q, .poll e.id e.wk ∈ as0) → (∀ i wk, s0.pc i = .p1 wk → .poll i wk ∈ as0) → (∀ e n, .popped e n ∈ tr0 → .poll e.id e.wk ∈ as0) →
      exec b s0 as = some (s, tr) → (∀ e ∈ s.q, .poll e.id e.wk ∈ as0 ++ as) ∧ ∀ e n, .popped e n ∈ tr0 ++ tr → .poll e.id e.wk ∈ as0 ++ as := by
    intro as
    induction as with
    | nil => intro s0 s tr0 tr as0 h1 _ h3 he; cases he; simpa using ⟨h1, h3⟩
    | cons a as ih =>
      intro s0 s tr0 tr as0 h1 h2 h3 he
      simp only [exec] at he
      split at he
      · cases he
      · rename_i s1 e1 hs
        split at he
        · cases he
        · rename_i s2 e2 hx
          cases he
          have := ih s1 s (tr0 ++ e1) e2 (as0 ++ [a]) ?_ ?_ ?_ hx
          · simpa using this
          · cases tr_of_step hs with
            | ins i wk hp hn hq =>
              intro e he
              rcases (mem_insE _ _ _ _).1 he with rfl | he
              · simp [h2 i wk hp]
              · simp [h1 e he]
            | popYes e q hh hq hr => intro x hx; simp [h1 x (by rw [hq]; exact List.mem_cons_of_mem _ hx)]
            | del i hp => intro e he; simp [h1 e (List.mem_filter.1 he).1]
            | _ => intro e he; simp [h1 e he]
          · cases tr_of_step hs with
            | pollNew i wk hp hn hr hl =>
              intro j wk' hj
              simp only [set_apply] at hj
              split at hj
              · rename_i hji; cases hj; subst hji; simp
              · simp [h2 j wk' hj]
            | ins i wk hp hn hq =>
              intro j wk' hj
              simp only [set_apply] at hj
              split at hj
              · split at hj <;> cases hj
              · simp [h2 j wk' hj]
            | _ => intro j wk' hj; first | simp [h2 j wk' hj] | (simp only [set_apply] at hj; split at hj; · cases hj
                                                                 · simp [h2 j wk' hj])
          · intro e n hm
            rcases List.mem_append.1 hm with hm | hm
            · simp [h3 e n hm]
            · cases tr_of_step hs <;> simp at hm
              obtain ⟨rfl, rfl⟩ := hm
              rename s0.q = _ => hq
              simp [h1 e (by rw [hq]; exact List.mem_cons_self)]
  simpa using key as (init b.noop) s [] tr [] (by simp [init]) (by simp [init]) (by simp) h

/-- Non-vacuity: two delays (times 3 and 5, 8-bit clock); at time 3 the compare fires; the handler wakes the first and arms for the second. -/
example : (exec ⟨8, false, 0⟩ (init false)
      [.create 1 5, .poll 1 71, .ins 1, .pend 1, .create 2 3, .poll 2 72, .ins 2, .pend 2, .start, .hgo, .hgo, .hgo, .hgo, .arm 3, .hgo,
        .tick false false false, .tick false false false, .tick true false false, .start, .hgo, .hgo, .hgo, .hgo, .hgo, .hgo, .arm 5, .hgo]).map (fun r => (r.2, r.1.h, r.1.cmp, r.1.q.map (·.id)))
    = some ([.inserted 1, .inserted 2, .popped ⟨2, 72, 3⟩ 3, .woke 72], .idle, some 5, [1]) := by decide

/-! ## C67 -/

/-- An action that gives no new reason for an interrupt: no `pend_interrupt`, no event of the timer hardware. -/
def Act.quiet : Act → Bool
  | .pend _ | .tick true _ _ | .tick _ true _ | .tick _ _ true => false
  | _ => true

/-- **C67** The handler acknowledges its interrupt: from the entry of the handler (`start` has taken the pending bit) on, if neither a task pends the interrupt nor the hardware raises a new event, then whatever else happens
(delays created, polled, dropped, clock running), the interrupt line is low when the handler has returned, and it cannot be entered again. -/
theorem C67_interrupt_acknowledged {b : Cfg} {s0 s s' : St} {ev0 ev : List Ev} {as : List Act} (h0 : step b s0 .start = some (s, ev0))
    (hq : ∀ a ∈ as, a.quiet = true) (he : exec b s as = some (s', ev)) (hend : s'.h = .idle) : s'.irq = false ∧ step b s' .start = none := by
  have key : ∀ (as : List Act) (s s' : St) (ev : List Ev), (∀ a ∈ as, a.quiet = true) → exec b s as = some (s', ev) →
      (s.pend = false ∧ (s.h = .h0 ∨ s.flag = false ∧ (s.h = .h0b ∨ s.other = false))) →
      (s'.pend = false ∧ (s'.h = .h0 ∨ s'.flag = false ∧ (s'.h = .h0b ∨ s'.other = false))) := by
    intro as
    induction as with
    | nil => intro s s' ev _ he h; cases he; exact h
    | cons a as ih =>
      intro s s' ev hq he h
      simp only [exec] at he
      split at he
      · cases he
      · rename_i s1 e1 hs
        split at he
        · cases he
        · rename_i s2 e2 hx
          cases he
          refine ih s1 s' e2 (fun a h => hq a (List.mem_cons_of_mem _ h)) hx ?_
          have ha := hq a List.mem_cons_self
          cases tr_of_step hs with
          | tick m o p g1 g2 g3 => cases m <;> cases o <;> cases p <;> simp_all [Act.quiet]
          | pend i hp => simp [Act.quiet] at ha
          | start hh hi => simp_all
          | _ => simp_all
  have h1 : s.pend = false ∧ s.h = .h0 := by
    cases tr_of_step h0; exact ⟨rfl, rfl⟩
  have h2 := key as s s' ev hq he ⟨h1.1, .inl h1.2⟩
  simp [hend] at h2
  have h3 : s'.irq = false := by simp [St.irq, h2]
  exact ⟨h3, by simp [step, hend, h3]⟩

/-- Non-vacuity: an overflow and a compare match raised the interrupt; after one run of the handler the line is low. -/
example : (exec ⟨8, false, 0⟩ (init false) [.create 1 5, .poll 1 71, .ins 1, .pend 1, .tick true true false, .start, .hgo, .hgo, .hgo, .hgo, .arm 5, .tick false false false, .hgo]).map
    (fun r => (r.1.h, r.1.irq, r.1.q.length)) = some (.idle, false, 1) := by decide

/-- the handler alone reaches `idle` from `s` in at most `n` steps -/
def Finishes (b : Cfg) (n : Nat) (s : St) : Prop :=
  ∃ as s' ev, as.length ≤ n ∧ (∀ a ∈ as, a = .hgo ∨ ∃ c, a = .arm c) ∧ exec b s as = some (s', ev) ∧ s'.h = .idle ∧ s'.now = s.now

theorem Finishes.cons {b : Cfg} {n : Nat} {s s1 : St} {a : Act} {e : List Ev} (ha : a = .hgo ∨ ∃ c, a = .arm c) (hs : step b s a = some (s1, e)) (hn : s1.now = s.now)
    (h : Finishes b n s1) : Finishes b (n + 1) s := by
  obtain ⟨as, s', ev, h1, h2, h3, h4, h5⟩ := h
  refine ⟨a :: as, s', e ++ ev, by simp; omega, ?_, by simp [exec, hs, h3], h4, by omega⟩
  intro x hx
  rcases List.mem_cons.1 hx with rfl | hx
  · exact ha
  · exact h2 x hx

theorem Finishes.mono {b : Cfg} {n m : Nat} {s : St} (h : Finishes b n s) (hle : n ≤ m) : Finishes b m s := by
  obtain ⟨as, s', ev, h1, h2⟩ := h
  exact ⟨as, s', ev, by omega, h2⟩

theorem finishes_h5 {b : Cfg} {s : St} (hh : s.h = .h5) : Finishes b 1 s :=
  ⟨[.hgo], { s with en := b.noop, h := .idle }, [], by simp, by simp, by simp [exec, step, hh], rfl, rfl⟩

theorem finishes_h1 {b : Cfg} : ∀ (n : Nat) (s : St), s.q.length = n → s.h = .h1 → Finishes b (2 * n + 4) s
  | n, s, hn, hh => by
    cases hq : s.q with
    | nil =>
      have h1 : step b s .hgo = some ({ s with h := .h5 }, []) := by simp [step, hh, hq]
      exact (Finishes.cons (.inl rfl) h1 rfl (finishes_h5 rfl)).mono (by omega)
    | cons e q =>
      cases hat : atLeast b.w s.now e.time with
      | true =>
        have h1 : step b s .hgo = some ({ s with q := q, lk := set s.lk e.id (some true), h := .h2 e.wk }, [.popped e s.now]) := by simp [step, hh, hq, hat]
        have h2 : step b { s with q := q, lk := set s.lk e.id (some true), h := .h2 e.wk } .hgo = some ({ s with q := q, lk := set s.lk e.id (some true), h := .h1 }, [.woke e.wk]) := by simp [step]
        have hlen : q.length < n := by rw [hq] at hn; simp at hn; omega
        have ih := finishes_h1 (b := b) q.length { s with q := q, lk := set s.lk e.id (some true), h := .h1 } rfl rfl
        exact (Finishes.cons (.inl rfl) h1 rfl (Finishes.cons (.inl rfl) h2 rfl ih)).mono (by omega)
      | false =>
        have h1 : step b s .hgo = some ({ s with lk := set s.lk e.id (some false), h := .h3 e.time }, []) := by simp [step, hh, hq, hat]
        have h2 : step b { s with lk := set s.lk e.id (some false), h := .h3 e.time } .hgo = some ({ s with lk := set s.lk e.id (some false), en := true, h := .h3b e.time }, []) := by simp [step]
        have h3 : step b { s with lk := set s.lk e.id (some false), en := true, h := .h3b e.time } (.arm e.time) =
            some ({ s with lk := set s.lk e.id (some false), en := true, cmp := some e.time, req := some e.time, h := .h4 e.time }, []) := by
          simp only [step]; exact if_pos (fun h => .inl ⟨h, by omega⟩)
        have h4 : Finishes b 1 { s with lk := set s.lk e.id (some false), en := true, cmp := some e.time, req := some e.time, h := .h4 e.time } :=
          ⟨[.hgo], { s with lk := set s.lk e.id (some false), en := true, cmp := some e.time, req := some e.time, h := .idle }, [], by simp, by simp, by simp [exec, step, hat], rfl, rfl⟩
        exact (Finishes.cons (.inl rfl) h1 rfl (Finishes.cons (.inl rfl) h2 rfl (Finishes.cons (.inr ⟨_, rfl⟩) h3 rfl h4))).mono (by omega)
termination_by n => n

/-- **C67** The handler returns: from every state, left alone (the clock not advancing), it finishes after at most two steps per waiting delay and a constant number of further steps. -/
theorem C67_handler_terminates {b : Cfg} (s : St) : ∃ as s' ev, as.length ≤ 2 * s.q.length + 7 ∧ (∀ a ∈ as, a = .hgo ∨ ∃ c, a = .arm c) ∧
    exec b s as = some (s', ev) ∧ s'.h = .idle ∧ s'.now = s.now := by
  show Finishes b (2 * s.q.length + 7) s
  have f1 : ∀ (s : St), s.h = .h1 → Finishes b (2 * s.q.length + 4) s := fun s h => finishes_h1 _ s rfl h
  have f4 : ∀ (s : St) (t : Nat), s.h = .h4 t → Finishes b (2 * s.q.length + 5) s := by
    intro s t hh
    cases hat : atLeast b.w s.now t with
    | true => exact Finishes.cons (.inl rfl) (show step b s .hgo = some ({ s with h := .h1 }, []) by simp [step, hh, hat]) rfl (f1 { s with h := .h1 } rfl)
    | false => exact ⟨[.hgo], { s with h := .idle }, [], by simp, by simp, by simp [exec, step, hh, hat], rfl, rfl⟩
  have f3b : ∀ (s : St) (t : Nat), s.h = .h3b t → Finishes b (2 * s.q.length + 6) s := by
    intro s t hh
    refine Finishes.cons (.inr ⟨t, rfl⟩) (s1 := { s with cmp := some t, req := some t, h := .h4 t }) (e := []) ?_ rfl (f4 { s with cmp := some t, req := some t, h := .h4 t } t rfl)
    simp only [step, hh]; exact if_pos (fun h => .inl ⟨h, by omega⟩)
  cases hh : s.h with
  | idle => exact ⟨[], s, [], by simp, by simp, rfl, hh, rfl⟩
  | h0 =>
    have h1 : step b s .hgo = some ({ s with flag := false, cmp := none, h := .h0b }, []) := by simp [step, hh]
    have h2 : step b { s with flag := false, cmp := none, h := .h0b } .hgo = some ({ s with flag := false, cmp := none, other := false, h := .h1 }, []) := by simp [step]
    exact (Finishes.cons (.inl rfl) h1 rfl (Finishes.cons (.inl rfl) h2 rfl (f1 _ rfl))).mono (Nat.le_succ _)
  | h0b =>
    have h2 : step b s .hgo = some ({ s with other := false, h := .h1 }, []) := by simp [step, hh]
    exact (Finishes.cons (.inl rfl) h2 rfl (f1 _ rfl)).mono (by show 2 * s.q.length + 4 + 1 ≤ _; omega)
  | h1 => exact (f1 s hh).mono (by omega)
  | h2 wk => exact (Finishes.cons (.inl rfl) (show step b s .hgo = some ({ s with h := .h1 }, [.woke wk]) by simp [step, hh]) rfl (f1 _ rfl)).mono (by show 2 * s.q.length + 4 + 1 ≤ _; omega)
  | h3 t => exact Finishes.cons (.inl rfl) (show step b s .hgo = some ({ s with en := true, h := .h3b t }, []) by simp [step, hh]) rfl (f3b { s with en := true, h := .h3b t } t rfl)
  | h3b t => exact (f3b s t hh).mono (by omega)
  | h4 t => exact (f4 s t hh).mono (by omega)
  | h5 => exact (finishes_h5 hh).mono (by omega)

/-! ## C28 -/

/-- **C28** In every reachable state in which some task waits and the handler is not running: the interrupt is pending, or a task that
inserted a new head is about to pend it, or the compare interrupt is enabled and armed for a time in the future that is not later than the
release time of any waiting task (plus the slack `sl` of the backend, which is 0 except for the nRF RTC). -/
theorem C28_no_missed_deadline {b : Cfg} (hw : 0 < b.w) {s : St} {tr : List Ev} (h : Reach b s tr) (hh : s.h = .idle) (hq : s.q ≠ []) :
    s.irq = true ∨ AboutToPend s ∨
      (s.en = true ∧ ∃ c, s.cmp = some c ∧ s.now < c ∧ ∀ e ∈ s.q, c ≤ e.time + b.sl) := by
  have := (reach_inv hw h).2
  simp only [Arm, hh] at this
  rcases this with h | h | h | h
  · exact absurd h hq
  · exact .inl h
  · exact .inr (.inl h)
  · exact .inr (.inr h)

/-- **C28** Hence if a waiting task is overdue and the handler is not running, the interrupt is pending (or about to be pended). -/
theorem C28_overdue_pending {b : Cfg} (hw : 0 < b.w) {s : St} {tr : List Ev} (h : Reach b s tr) (hh : s.h = .idle) {e : E} (he : e ∈ s.q)
    (ht : e.time + b.sl ≤ s.now) : s.irq = true ∨ AboutToPend s := by
  rcases C28_no_missed_deadline hw h hh (List.ne_nil_of_mem he) with h1 | h1 | ⟨-, c, -, h2, h3⟩
  · exact .inl h1
  · exact .inr h1
  · have := h3 e he; omega

/-- **C28** The armed compare does fire: whatever the hardware does in between, when the clock has reached the armed time (and nothing else happened) the interrupt is pending. -/
theorem C28_compare_fires {b : Cfg} (c : Nat) : ∀ (as : List Act) (s s' : St) (ev : List Ev), s.h = .idle → s.en = true → s.cmp = some c →
    s.now < c → (∀ a ∈ as, ∃ m o p, a = .tick m o p) → exec b s as = some (s', ev) → c ≤ s'.now → s'.irq = true ∧ s'.q = s.q ∧ s'.h = .idle := by
  have keep : ∀ (as : List Act) (s s' : St) (ev : List Ev), s.h = .idle → s.irq = true → (∀ a ∈ as, ∃ m o p, a = .tick m o p) →
      exec b s as = some (s', ev) → s'.irq = true ∧ s'.q = s.q ∧ s'.h = .idle := by
    intro as
    induction as with
    | nil => intro s s' ev h1 h2 _ he; cases he; exact ⟨h2, rfl, h1⟩
    | cons a as ih =>
      intro s s' ev h1 h2 ha he
      obtain ⟨m, o, p, rfl⟩ := ha a List.mem_cons_self
      simp only [exec] at he
      split at he
      · cases he
      · rename_i s1 e1 hs
        split at he
        · cases he
        · rename_i s2 e2 hx
          cases he
          cases tr_of_step hs
          have := ih { s with now := s.now + 1, flag := s.flag || m, other := s.other || o, pend := s.pend || p } _ _ h1 (by simp only [St.irq] at h2 ⊢; grind) (fun a h => ha a (List.mem_cons_of_mem _ h)) hx
          exact this
  intro as
  induction as with
  | nil => intro s s' ev _ _ _ hn _ he hc; cases he; omega
  | cons a as ih =>
    intro s s' ev h1 h2 h3 hn ha he hc
    obtain ⟨m, o, p, rfl⟩ := ha a List.mem_cons_self
    have ha' := fun a h => ha a (List.mem_cons_of_mem _ h)
    simp only [exec] at he
    split at he
    · cases he
    · rename_i s1 e1 hs
      split at he
      · cases he
      · rename_i s2 e2 hx
        cases he
        cases tr_of_step hs with
        | tick m o p g1 g2 g3 =>
          rcases Nat.lt_or_ge (s.now + 1) c with hlt | hge
          · have := ih { s with now := s.now + 1, flag := s.flag || m, other := s.other || o, pend := s.pend || p } _ _ h1 h2 h3 hlt ha' hx hc
            exact this
          · have hceq : c = s.now + 1 := by omega
            have := g3 (by rw [h3, hceq])
            have := keep as { s with now := s.now + 1, flag := s.flag || m, other := s.other || o, pend := s.pend || p } _ _ h1
              (by simp only [St.irq, h2]; grind) ha' hx
            exact this

/-- Non-vacuity: armed for time 2; the hardware raises the interrupt at 2, and cannot pass 2 without doing so. -/
example : (exec ⟨8, false, 0⟩ (init false) ([.create 1 2, .poll 1 71, .ins 1, .pend 1, .start, .hgo, .hgo, .hgo, .hgo, .arm 2, .hgo] ++ [.tick false false false, .tick true false false, .tick false true false])).map
    (fun r => (r.1.now, r.1.irq)) = some (3, true) ∧
  exec ⟨8, false, 0⟩ (init false) ([.create 1 2, .poll 1 71, .ins 1, .pend 1, .start, .hgo, .hgo, .hgo, .hgo, .arm 2, .hgo] ++ [.tick false false false, .tick false false false]) = none := by
  constructor <;> decide

/-- **C28** And the handler, once entered with an overdue head, wakes it. -/
theorem C28_handler_wakes_overdue {b : Cfg} (hw : 0 < b.w) {s : St} {tr : List Ev} (h : Reach b s tr) (hh : s.h = .idle) (hi : s.irq = true)
    {e : E} {q : List E} (hq : s.q = e :: q) (ht : e.time ≤ s.now) :
    ∃ s', exec b s [.start, .hgo, .hgo, .hgo, .hgo] = some (s', [.popped e s.now, .woke e.wk]) := by
  have hI := (reach_inv hw h).1
  have ha : atLeast b.w s.now e.time = true := by
    rw [atLeast_eq hw (hI.win e (by rw [hq]; exact List.mem_cons_self))]; simpa using ht
  simp [exec, step, hh, hi, hq, ha]

/-- Non-vacuity: a waiting delay with the compare armed, and an overdue one with the interrupt pending. -/
example : (exec ⟨8, false, 0⟩ (init false) [.create 1 2, .poll 1 71, .ins 1, .pend 1, .start, .hgo, .hgo, .hgo, .hgo, .arm 2, .hgo]).map
    (fun r => (r.1.h, r.1.q, r.1.cmp, r.1.irq)) = some (.idle, [⟨1, 71, 2⟩], some 2, false) := by decide
example : (exec ⟨8, false, 0⟩ (init false) [.create 1 2, .poll 1 71, .ins 1, .pend 1, .start, .hgo, .hgo, .hgo, .hgo, .arm 2, .hgo, .tick false false false, .tick true false false]).map
    (fun r => (r.1.h, r.1.q, r.1.now, r.1.irq)) = some (.idle, [⟨1, 71, 2⟩], 2, true) := by decide

/-! ## C29 -/

/-- **C29** When the drop of a delay is finished, no entry of it is in the queue, and all other entries are still there, in the same order. -/
theorem C29_drop_removes {b : Cfg} (hw : 0 < b.w) {s s' : St} {tr ev : List Ev} {a : Act} {i : Nat} (h : Reach b s tr)
    (hs : step b s a = some (s', ev)) (hd : Ev.dropped i ∈ ev) :
    (∀ e ∈ s'.q, e.id ≠ i) ∧ s'.q = s.q.filter (fun e => e.id ≠ i) := by
  have hI := (reach_inv hw h).1
  cases tr_of_step hs <;> simp at hd
  case dropN j hp hl =>
    subst hd
    have hni : ∀ e ∈ s.q, e.id ≠ i := by
      intro e he hid; exact hl ((hI.mem i).1 ⟨e, he, hid⟩).2
    refine ⟨hni, ?_⟩
    rw [eq_comm, List.filter_eq_self]; intro e he; simp [hni e he]
  case del j hp =>
    subst hd
    exact ⟨fun e he => by simpa using (List.mem_filter.1 he).2, rfl⟩

/-- **C29** In no reachable state the queue refers to a future that no longer exists, and no delay is in it twice. -/
theorem C29_no_dangling {b : Cfg} (hw : 0 < b.w) {s : St} {tr : List Ev} (h : Reach b s tr) :
    (∀ e ∈ s.q, s.pc e.id ≠ .none) ∧ (s.q.map (·.id)).Nodup := by
  have hI := (reach_inv hw h).1
  refine ⟨?_, hI.nodup⟩
  intro e he hn
  have := (hI.mem e.id).1 ⟨e, he, rfl⟩
  simp [hn] at this

/-- **C29** A drop that has begun can always be completed, also if the handler pops the entry in between. -/
theorem C29_drop_completes {b : Cfg} {s : St} {i : Nat} :
    (s.pc i = .alive → (∃ s', step b s (.drop i) = some (s', [.dropped i])) ∨ ∃ s', step b s (.drop i) = some (s', []) ∧ s'.pc i = .d1) ∧
    (s.pc i = .d1 → ∃ s', step b s (.del i) = some (s', [.dropped i])) := by
  refine ⟨?_, ?_⟩
  · intro hp
    simp only [step, hp]
    split
    · exact .inr ⟨_, rfl, by simp⟩
    · exact .inl ⟨_, rfl⟩
  · intro hp; exact ⟨{ s with q := s.q.filter (fun e => e.id ≠ i), pc := set s.pc i .none }, by simp [step, hp]⟩

/-- Non-vacuity: the handler pops delay 1 between the two steps of its drop; delay 2 stays. -/
example : (exec ⟨8, false, 0⟩ (init false) [.create 1 1, .poll 1 71, .ins 1, .pend 1, .create 2 4, .poll 2 72, .ins 2, .tick false false false, .drop 1, .start, .hgo, .hgo, .hgo,
      .del 1]).map (fun r => (r.2, r.1.q)) = some ([.inserted 1, .inserted 2, .popped ⟨1, 71, 1⟩ 1, .dropped 1], [⟨2, 72, 4⟩]) := by decide

/-- A delay reports ready only at or after its instant (part of C25, in the full system). -/
theorem C25_ready_not_before_instant {b : Cfg} (hw : 0 < b.w) {s s' : St} {ev : List Ev} {a : Act} {i : Nat}
    (hs : step b s a = some (s', ev)) (hr : Ev.ready i ∈ ev) : s.inst i ≤ s.now := by
  cases tr_of_step hs <;> simp at hr
  rename_i j wk hp hn hat
  subst hr
  rw [atLeast_eq hw hn] at hat
  simpa using hat

end Verif.TimerQueue
