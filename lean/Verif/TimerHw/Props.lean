import Verif.TimerHw.Model
import Verif.TimerQueue.Props
import Verif.Backends.Props

/-! # C66: the timer queue on concrete timers -/

namespace Verif.TimerHw

open TimerQueue (E Ev Hpc AboutToPend Inv)
open Backends (Backend written CompareMatch Triggers)

/-- At time `u` this hardware raises the interrupt. -/
def Fires (hw : Hw) (reg : Option (Nat × Nat)) (u : Nat) : Prop := (matches_ hw reg u || overflows hw u || hw.isSystick) = true

/-- The abstract state which this state implements: armed for `x`. -/
def St.abs (s : St) (x : Option Nat) : TimerQueue.St := { s.q with cmp := x }

structure Sim (hw : Hw) (d : Nat) (s : St) (tr : List Ev) (x : Option Nat) : Prop where
  reach : TimerQueue.Reach (hw.cfg d) (s.abs x) tr
  /-- the hardware will fire at the armed time -/
  fires : ∀ c, x = some c → s.q.now < c → Fires hw s.reg c
  /-- while `set_compare` is between clock read and write -/
  rd : ∀ tn, s.rd = some tn → ∃ t, s.q.h = .h3b t ∧ tn ≤ s.q.now ∧ t < tn + 2 ^ 63 ∧ ∀ u, tn < u → u ≤ s.q.now → overflows hw u = true → s.q.other = true

/-- What the abstract step does to `cmp`. -/
def cmpAfter (s : TimerQueue.St) (a : TimerQueue.Act) (x : Option Nat) : Option Nat := if a = .hgo ∧ s.h = .h0 then none else x

theorem step_abs {b : TimerQueue.Cfg} {s s' : TimerQueue.St} {a : TimerQueue.Act} {ev : List Ev} (x : Option Nat)
    (ht : ∀ m o p, a ≠ .tick m o p) (ha : ∀ c, a ≠ .arm c) (h : TimerQueue.step b s a = some (s', ev)) :
    TimerQueue.step b { s with cmp := x } a = some ({ s' with cmp := cmpAfter s a x }, ev) := by
  have hg : a ≠ .hgo → cmpAfter s a x = x := by intro h; simp [cmpAfter, h]
  cases TimerQueue.tr_of_step h with
  | tick m o p => exact absurd rfl (ht m o p)
  | arm c => exact absurd rfl (ha c)
  | ins i wk hp hn' hq => rw [hg (by simp)]; simp only [TimerQueue.step, hp]; rw [if_pos ⟨hn', hq⟩]
  | _ => simp_all [TimerQueue.step, TimerQueue.St.irq, cmpAfter]

theorem step_keeps {b : TimerQueue.Cfg} {s s' : TimerQueue.St} {a : TimerQueue.Act} {ev : List Ev}
    (ht : ∀ m o p, a ≠ .tick m o p) (ha : ∀ c, a ≠ .arm c) (h : TimerQueue.step b s a = some (s', ev)) :
    s'.now = s.now ∧ ∀ t, s.h = .h3b t → s'.h = .h3b t ∧ s'.other = s.other := by
  cases TimerQueue.tr_of_step h with
  | tick m o p => exact absurd rfl (ht m o p)
  | arm c => exact absurd rfl (ha c)
  | _ => simp_all

theorem fires_tick {hw : Hw} {reg : Option (Nat × Nat)} {u : Nat} (h : Fires hw reg u) (x y z : Bool) :
    ((matches_ hw reg u || x) || (overflows hw u || y) || (hw.isSystick || z)) = true := by
  simp only [Fires] at h; grind

/-- The two halves written by the ESP32 `set_compare` are the instant as the 52-bit comparator sees it. -/
theorem systimer_value (t tn : Nat) : Hw.value .systimer t tn = t % 2 ^ 52 := by
  have h1 : (BitVec.ofNat 64 t &&& 0xFFFFFFFF#64).toNat = t % 2 ^ 64 % 2 ^ 32 := by
    rw [BitVec.toNat_and, BitVec.toNat_ofNat]
    exact Nat.and_two_pow_sub_one_eq_mod (t % 2 ^ 64) 32
  have h2 : (BitVec.ofNat 64 t >>> 32).toNat = t % 2 ^ 64 / 2 ^ 32 := by
    rw [BitVec.toNat_ushiftRight, BitVec.toNat_ofNat, Nat.shiftRight_eq_div_pow]
  simp only [Hw.value, h1, h2]
  omega

/-- C33 for `set_compare` as a whole: the hardware fires after the write and in time, or an overflow happened during `set_compare`. -/
theorem write_fires (hw : Hw) (d : Nat) {t tn tw : Nat} (h1 : tn ≤ tw) (h2 : tw < t) (h63 : t < tn + 2 ^ 63) (hd : tw ≤ tn + hw.dur d) (v : Nat)
    (hv : ∀ bk, hw = .compare bk → v = written bk t tn) (he : hw = .systimer → v = t % 2 ^ 52) :
    (∃ c, tw < c ∧ c ≤ t + hw.slack d ∧ Fires hw (some (v, tw)) c) ∨ ∃ u, tn < u ∧ u ≤ tw ∧ overflows hw u = true := by
  cases hw with
  | systick => exact .inl ⟨tw + 1, by omega, by omega, by simp [Fires, Hw.isSystick]⟩
  | systimer =>
    obtain rfl := he rfl
    exact .inl ⟨t, h2, by omega, by simp [Fires, matches_, h2]⟩
  | compare bk =>
    obtain rfl := hv bk rfl
    have hn : bk = .nrfRtc → tw = tn := by rintro rfl; simp only [Hw.dur] at hd; omega
    obtain ⟨⟨u, hu1, hu2, hu3⟩, -⟩ := Backends.C33_in_time_partial bk h1 h2 (by omega) hn
    have hsl : bk.slack tn tw ≤ Hw.slack d (.compare bk) := by
      cases bk <;> simp only [Backend.slack, Hw.slack, Hw.dur] at * <;> omega
    rcases hu2 with ⟨k1, k2⟩ | ⟨k1, k2, k3⟩
    · refine .inl ⟨u, by omega, by omega, ?_⟩
      simp [Fires, matches_, k1, k2]
    · rcases Nat.lt_or_ge tw u with hlt | hge
      · exact .inl ⟨u, hlt, by omega, by simp [Fires, overflows, k1, k3]⟩
      · exact .inr ⟨u, hu1, hge, by simp [overflows, k1, k3]⟩

theorem sim_step {hw : Hw} {d : Nat} {s s' : St} {tr ev : List Ev} {x : Option Nat} {a : Act} (h : Sim hw d s tr x) (hs : step hw d s a = some (s', ev)) :
    ∃ x', Sim hw d s' (tr ++ ev) x' := by
  obtain ⟨h1, h2, h3⟩ := h
  have hw0 : 0 < (hw.cfg d).w := by simp [Hw.cfg]
  have hI := (TimerQueue.reach_inv hw0 h1).1
  cases a with
  | tick p y z =>
    simp only [step, Option.map_eq_some_iff] at hs
    obtain ⟨⟨q', e'⟩, hq, he⟩ := hs
    cases he
    refine ⟨x, ?_, ?_, ?_⟩
    · refine h1.step (a := .tick (matches_ hw s.reg (s.q.now + 1) || p) (overflows hw (s.q.now + 1) || y) (hw.isSystick || z)) ?_
      cases TimerQueue.tr_of_step hq with
      | tick m o p' g1 g2 g3 =>
        exact if_pos ⟨g1, g2, fun hc => fires_tick (h2 _ hc (Nat.lt_succ_self _)) p y z⟩
    · cases TimerQueue.tr_of_step hq with
      | tick m o p' g1 g2 g3 => intro c hc hlt; exact h2 c hc (by dsimp only at hlt; omega)
    · cases TimerQueue.tr_of_step hq with
      | tick m o p' g1 g2 g3 =>
        intro tn htn
        obtain ⟨t, k1, k2, k3, k4⟩ := h3 tn htn
        refine ⟨t, k1, by dsimp only; omega, k3, ?_⟩
        intro u hu1 hu2 hu3
        dsimp only at hu2 ⊢
        rcases Nat.lt_or_ge s.q.now u with hlt | hge
        · have : u = s.q.now + 1 := by omega
          subst this; simp [hu3]
        · simp [k4 u hu1 hge hu3]
  | read =>
    simp only [step] at hs
    split at hs
    · rename_i t hh hr
      cases hs
      refine ⟨x, by rw [List.append_nil]; exact h1, h2, ?_⟩
      intro tn htn
      cases htn
      have := hI.hwin t (by simp [St.abs, hh, Hpc.inst?])
      rw [TimerQueue.near_iff] at this
      refine ⟨t, hh, Nat.le_refl _, this.2, ?_⟩
      intro u hu1 hu2; dsimp only at hu2; omega
    · cases hs
  | write =>
    simp only [step] at hs
    split at hs
    · rename_i t tn hh hr
      split at hs
      · rename_i hd
        cases hs
        obtain ⟨t', k1, k2, k3, k4⟩ := h3 tn hr
        rw [hh] at k1; cases k1
        have hv' : ∀ bk, hw = .compare bk → hw.value t tn = written bk t tn := by rintro bk rfl; rfl
        -- the time for which the hardware is armed
        have : ∃ c, (s.q.now < t → (s.q.now < c ∧ c ≤ t + hw.slack d) ∨ s.q.other = true) ∧ (s.q.now < c → Fires hw (some (hw.value t tn, s.q.now)) c) := by
          by_cases hlt : s.q.now < t
          · rcases write_fires hw d k2 hlt k3 hd _ hv' (by rintro rfl; exact systimer_value t tn) with ⟨c, c1, c2, c3⟩ | ⟨u, u1, u2, u3⟩
            · exact ⟨c, fun _ => .inl ⟨c1, c2⟩, fun _ => c3⟩
            · exact ⟨0, fun _ => .inr (k4 u u1 u2 u3), fun h => by omega⟩
          · exact ⟨0, fun h => absurd h hlt, fun h => by omega⟩
        obtain ⟨c, c1, c2⟩ := this
        refine ⟨some c, ?_, ?_, by simp⟩
        · refine h1.step (a := .arm c) ?_
          simp only [TimerQueue.step, St.abs, hh]
          rw [if_pos ?_]
          intro hlt
          rcases c1 hlt with h | h
          · exact .inl h
          · right; simp [TimerQueue.St.irq, h]
        · intro c' hc' hlt; cases hc'; exact c2 hlt
      · cases hs
    · cases hs
  | base a =>
    have ht : ∀ m o p, a ≠ .tick m o p := by rintro m o p rfl; simp [step] at hs
    have ha : ∀ c, a ≠ .arm c := by rintro c rfl; simp [step] at hs
    have hs' : ((TimerQueue.step (hw.cfg d) s.q a).map fun r =>
      (({ s with q := r.1, reg := if a = .hgo ∧ s.q.h = .h0 then none else s.reg } : St), r.2)) = some (s', ev) := by
      cases a <;> first | exact hs | exact absurd rfl (ht _ _ _) | exact absurd rfl (ha _)
    simp only [Option.map_eq_some_iff] at hs'
    obtain ⟨⟨q', e'⟩, hq, he⟩ := hs'
    cases he
    obtain ⟨g1, g2⟩ := step_keeps ht ha hq
    refine ⟨cmpAfter s.q a x, h1.step (step_abs x ht ha hq), ?_, ?_⟩
    · intro c hc hlt
      simp only [cmpAfter] at hc
      dsimp only at hlt ⊢
      split at hc
      · cases hc
      · rename_i hne; rw [if_neg hne]; exact h2 c hc (by omega)
    · intro tn htn
      obtain ⟨t, k1, k2, k3, k4⟩ := h3 tn htn
      obtain ⟨g3, g4⟩ := g2 t k1
      exact ⟨t, g3, by dsimp only; omega, k3, fun u u1 u2 u3 => by dsimp only at u2 ⊢; rw [g4]; exact k4 u u1 (by omega) u3⟩

theorem reach_sim {hw : Hw} {d : Nat} {s : St} {tr : List Ev} (h : Reach hw d s tr) : ∃ x, Sim hw d s tr x := by
  obtain ⟨as, he⟩ := h
  have : ∀ (as : List Act) (s0 : St) (tr0 : List Ev) (s : St) (tr : List Ev) (x : Option Nat), Sim hw d s0 tr0 x → exec hw d s0 as = some (s, tr) →
      ∃ x', Sim hw d s (tr0 ++ tr) x' := by
    intro as
    induction as with
    | nil => intro s0 tr0 s tr x h he; cases he; exact ⟨x, by simpa using h⟩
    | cons a as ih =>
      intro s0 tr0 s tr x h he
      simp only [exec] at he
      split at he
      · cases he
      · rename_i s1 e1 hs
        split at he
        · cases he
        · rename_i s2 e2 hx
          cases he
          obtain ⟨x1, h1⟩ := sim_step h hs
          have := ih s1 (tr0 ++ e1) _ _ x1 h1 hx
          simpa using this
  have h0 : Sim hw d (init hw) [] none := ⟨⟨[], rfl⟩, by simp, by simp [init]⟩
  simpa using this as (init hw) [] s tr none h0 he

theorem Reach.append {hw : Hw} {d : Nat} {s s' : St} {tr ev : List Ev} {as : List Act} (h : Reach hw d s tr) (he : exec hw d s as = some (s', ev)) :
    Reach hw d s' (tr ++ ev) := by
  obtain ⟨bs, hb⟩ := h
  refine ⟨bs ++ as, ?_⟩
  have : ∀ (bs : List Act) (s0 : St) (tr0 : List Ev), exec hw d s0 bs = some (s, tr0) → exec hw d s0 (bs ++ as) = some (s', tr0 ++ ev) := by
    intro bs
    induction bs with
    | nil => intro s0 tr0 h; cases h; simpa using he
    | cons c bs ih =>
      intro s0 tr0 h
      simp only [exec] at h
      split at h
      · cases h
      · rename_i s1 e1 h1
        split at h
        · cases h
        · rename_i s2 es h2
          cases h
          simp [exec, h1, ih _ _ h2]
  exact this bs (init hw) tr hb

theorem exec_append {hw : Hw} {d : Nat} {s' s'' : St} {tr ev : List Ev} {as : List Act} : ∀ (bs : List Act) (s : St) (_ : exec hw d s bs = some (s', tr)) (_ : exec hw d s' as = some (s'', ev)),
    exec hw d s (bs ++ as) = some (s'', tr ++ ev) := by
  intro bs
  induction bs generalizing tr with
  | nil => intro s h he; cases h; simpa using he
  | cons c bs ih =>
    intro s h he
    simp only [exec] at h
    split at h
    · cases h
    · rename_i s1 e1 h1
      split at h
      · cases h
      · rename_i s2 es h2
        cases h
        simp [exec, h1, ih _ h2 he]

/-! ## C66 -/

/-- **C66** On every timer: if a waiting delay is due (and the slack of the timer has passed: two ticks on the nRF RTC, the duration `d` of `set_compare` on the RP chips, none else) and the handler is not
running, its interrupt is pending, or the task which inserted the new head of the queue is about to pend it. For every interleaving. -/
theorem C66_due_interrupt_pending {hw : Hw} {d : Nat} {s : St} {tr : List Ev} (h : Reach hw d s tr) (hh : s.q.h = .idle) {e : E} (he : e ∈ s.q.q)
    (ht : e.time + hw.slack d ≤ s.q.now) : s.q.irq = true ∨ ∃ i, s.q.pc i = .p2 := by
  obtain ⟨x, hx⟩ := reach_sim h
  exact TimerQueue.C28_overdue_pending (b := hw.cfg d) (s := s.abs x) (by simp [Hw.cfg]) hx.reach hh he ht

/-- **C66** No delay is woken early: when the handler takes out an entry, its instant has been reached, and it was the earliest entry. -/
theorem C66_never_early {hw : Hw} {d : Nat} {s s' : St} {tr ev : List Ev} {a : Act} {e : E} {n : Nat} (h : Reach hw d s tr)
    (hs : step hw d s a = some (s', ev)) (hm : Ev.popped e n ∈ ev) :
    n = s.q.now ∧ e.time ≤ s.q.now ∧ e.time = s.q.inst e.id ∧ (∀ x ∈ s.q.q, e.time ≤ x.time) := by
  obtain ⟨x, hx⟩ := reach_sim h
  cases a with
  | tick p y z =>
    simp only [step, Option.map_eq_some_iff] at hs
    obtain ⟨⟨q', e'⟩, hq, he⟩ := hs
    cases he
    cases TimerQueue.tr_of_step hq; simp at hm
  | read => simp only [step] at hs; split at hs <;> cases hs; cases hm
  | write =>
    simp only [step] at hs
    split at hs
    · split at hs <;> cases hs; cases hm
    · cases hs
  | base a =>
    have ht : ∀ m o p, a ≠ .tick m o p := by rintro m o p rfl; simp [step] at hs
    have ha : ∀ c, a ≠ .arm c := by rintro c rfl; simp [step] at hs
    have hs' : ((TimerQueue.step (hw.cfg d) s.q a).map fun r =>
      (({ s with q := r.1, reg := if a = .hgo ∧ s.q.h = .h0 then none else s.reg } : St), r.2)) = some (s', ev) := by
      cases a <;> first | exact hs | exact absurd rfl (ht _ _ _) | exact absurd rfl (ha _)
    simp only [Option.map_eq_some_iff] at hs'
    obtain ⟨⟨q', e'⟩, hq, he⟩ := hs'
    cases he
    have := TimerQueue.C27_pop_expired (b := hw.cfg d) (by simp [Hw.cfg]) hx.reach (step_abs x ht ha hq) hm
    exact ⟨this.1, this.2.1, this.2.2.1, this.2.2.2.1⟩

theorem ticks {hw : Hw} {d : Nat} : ∀ (n : Nat) (s : St), s.q.h = .idle → (∀ e ∈ s.q.q, s.q.now + n < e.time + 2 ^ 63) →
    ∃ s', exec hw d s (List.replicate n (.tick false false false)) = some (s', []) ∧ s'.q.now = s.q.now + n ∧ s'.q.q = s.q.q ∧ s'.q.h = .idle ∧ s'.q.pc = s.q.pc
  | 0, s, hh, _ => ⟨s, rfl, rfl, rfl, hh, rfl⟩
  | n + 1, s, hh, hq => by
    have : ∃ s1, step hw d s (.tick false false false) = some (s1, []) ∧ s1.q.now = s.q.now + 1 ∧ s1.q.q = s.q.q ∧ s1.q.h = .idle ∧ s1.q.pc = s.q.pc := by
      have hg : (∀ e ∈ s.q.q, s.q.now + 1 < e.time + TimerQueue.half (hw.cfg d).w) ∧ (∀ t, s.q.h.inst? = some t → s.q.now + 1 < t + TimerQueue.half (hw.cfg d).w) ∧
          ((none : Option Nat) = some (s.q.now + 1) → ((matches_ hw s.reg (s.q.now + 1) || false) || (overflows hw (s.q.now + 1) || false) || (hw.isSystick || false)) = true) := by
        refine ⟨fun e he => ?_, by simp [hh, Hpc.inst?], by simp⟩
        have := hq e he
        simp only [Hw.cfg, TimerQueue.half]; omega
      have hst : TimerQueue.step (hw.cfg d) { s.q with cmp := none } (.tick (matches_ hw s.reg (s.q.now + 1) || false) (overflows hw (s.q.now + 1) || false) (hw.isSystick || false)) = some _ := if_pos hg
      exact ⟨{ s with q := { s.q with cmp := none, now := s.q.now + 1, flag := s.q.flag || (matches_ hw s.reg (s.q.now + 1) || false), other := s.q.other || (overflows hw (s.q.now + 1) || false), pend := s.q.pend || (hw.isSystick || false) } },
        by simp only [step, hst, Option.map_some], rfl, rfl, hh, rfl⟩
    obtain ⟨s1, k1, k2, k3, k4, k5⟩ := this
    obtain ⟨s', j1, j2, j3, j4, j5⟩ := ticks (hw := hw) (d := d) n s1 k4 (by intro e he; rw [k3] at he; have := hq e he; omega)
    refine ⟨s', ?_, by omega, by rw [j3, k3], j4, by rw [j5, k5]⟩
    rw [List.replicate_succ]
    simp only [exec, k1, j1]; rfl

/-- **C66** Liveness: let a delay be the earliest one waiting, the handler not running and no task in the middle of inserting. If the clock just runs on until the delay is due (plus slack), the interrupt is
pending, and the handler wakes exactly this delay's task first. (`n` ticks; nothing else has to happen.) -/
theorem C66_woken_when_due {hw : Hw} {d : Nat} (hd : d < 2 ^ 62) {s : St} {tr : List Ev} (h : Reach hw d s tr) (hh : s.q.h = .idle) (hp : ∀ i, s.q.pc i ≠ .p2)
    {e : E} {q : List E} (hq : s.q.q = e :: q) {n : Nat} (hn : s.q.now + n = max s.q.now (e.time + hw.slack d)) :
    ∃ s', exec hw d s (List.replicate n (.tick false false false) ++ [.base .start, .base .hgo, .base .hgo, .base .hgo, .base .hgo]) =
      some (s', [.popped e (s.q.now + n), .woke e.wk]) := by
  obtain ⟨x, hx⟩ := reach_sim h
  have hw0 : 0 < (hw.cfg d).w := by simp [Hw.cfg]
  have hI := (TimerQueue.reach_inv hw0 hx.reach).1
  have hsl : hw.slack d < 2 ^ 62 := by unfold Hw.slack; split <;> omega
  have hmem : e ∈ s.q.q := by rw [hq]; exact List.mem_cons_self
  have hle : ∀ y ∈ s.q.q, e.time ≤ y.time := by
    intro y hy
    have hso := hI.sorted
    simp only [St.abs] at hso
    rw [hq] at hso hy
    rcases List.mem_cons.1 hy with rfl | hy
    · exact Nat.le_refl _
    · exact (List.pairwise_cons.1 hso).1 y hy
  have hwin : ∀ y ∈ s.q.q, s.q.now + n < y.time + 2 ^ 63 := by
    intro y hy
    have h1 := hle y hy
    have h2 := hI.win y hy
    rw [TimerQueue.near_iff] at h2
    have h3 : s.q.now < y.time + 2 ^ 63 := h2.1
    omega
  obtain ⟨s1, k1, k2, k3, k4, k5⟩ := ticks (hw := hw) (d := d) n s hh hwin
  have hr1 := h.append k1
  have hirq : s1.q.irq = true := by
    rcases C66_due_interrupt_pending hr1 k4 (e := e) (by rw [k3]; exact hmem) (by omega) with h | ⟨i, hi⟩
    · exact h
    · rw [k5] at hi; exact absurd hi (hp i)
  have hat : TimerQueue.atLeast (hw.cfg d).w s1.q.now e.time = true := by
    have hnear : TimerQueue.near (hw.cfg d).w s1.q.now e.time = true := by
      rw [TimerQueue.near_iff, k2]
      have := hwin e hmem
      simp only [Hw.cfg, TimerQueue.half]; omega
    rw [TimerQueue.atLeast_eq hw0 hnear]; simp; omega
  have hrun : ∃ s', exec hw d s1 [.base .start, .base .hgo, .base .hgo, .base .hgo, .base .hgo] = some (s', [.popped e s1.q.now, .woke e.wk]) := by
    simp [exec, step, TimerQueue.step, k4, hirq, k3, hq, hat]
  obtain ⟨s', hs'⟩ := hrun
  refine ⟨s', ?_⟩
  have := exec_append _ _ k1 hs'
  rw [k2] at this
  simpa using this

/-- Non-vacuity: a 16-bit STM32 timer. A delay for tick 3 is inserted at 0, the handler arms the compare register, and at tick 3 the match wakes it. -/
example : (exec (.compare (.stm32 false)) 1 (init (.compare (.stm32 false)))
      [.base (.create 1 3), .base (.poll 1 71), .base (.ins 1), .base (.pend 1), .base .start, .base .hgo, .base .hgo, .base .hgo, .base .hgo, .read, .tick false false false, .write, .base .hgo,
       .tick false false false, .tick false false false, .base .start, .base .hgo, .base .hgo, .base .hgo, .base .hgo]).map (fun r => (r.2, r.1.q.now, r.1.reg))
    = some ([.inserted 1, .popped ⟨1, 71, 3⟩ 3, .woke 71], 3, none) := by decide

/-- A far instant on the same timer (200000 ticks ahead): the register is set to 0 and the overflow re-evaluates; nothing is armed at the instant itself. -/
example : (exec (.compare (.stm32 false)) 1 (init (.compare (.stm32 false)))
      [.base (.create 1 200000), .base (.poll 1 71), .base (.ins 1), .base (.pend 1), .base .start, .base .hgo, .base .hgo, .base .hgo, .base .hgo, .read, .write, .base .hgo]).map
      (fun r => (r.2, r.1.q.h, r.1.reg)) = some ([.inserted 1], .idle, some (0, 0)) := by decide

/-- ESP32: a delay past the 32-bit boundary -/
example : (exec .systimer 1 { init .systimer with q := { TimerQueue.init true with now := 2 ^ 32 - 1 } }
      [.base (.create 1 (2 ^ 32 + 1)), .base (.poll 1 71), .base (.ins 1), .base (.pend 1), .base .start, .base .hgo, .base .hgo, .base .hgo, .base .hgo, .read, .write, .base .hgo,
       .tick false false false, .tick false false false, .base .start, .base .hgo, .base .hgo, .base .hgo, .base .hgo]).map (fun r => (r.2, r.1.q.now))
    = some ([.inserted 1, .popped ⟨1, 71, 2 ^ 32 + 1⟩ (2 ^ 32 + 1), .woke 71], 2 ^ 32 + 1) := by decide +kernel

end Verif.TimerHw
