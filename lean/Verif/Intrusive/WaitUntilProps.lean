import Verif.Intrusive.WaitUntil

/-! # C80 (`wait_until`): waiting futures are never accessed after they are gone -/

namespace Verif.Intrusive.Wait

open Verif.WaitQueue Verif.WaitUntil

/-! ## Invariant of the list-level machine -/

structure QInv (s : WaitUntil.St) : Prop where
  nodup : (s.q.map (·.1)).Nodup
  pend : ∀ i w, (i, w) ∈ s.q → s.pc i = .pend w

theorem unlink_map {q : List (Nat × Nat)} {i : Nat} (h : (q.map (·.1)).Nodup) : (unlink q i).map (·.1) = (q.map (·.1)).erase i := by
  rw [h.erase_eq_filter]
  simp only [unlink, List.filter_map]
  rfl

theorem mem_unlink {q : List (Nat × Nat)} {i j w : Nat} : (j, w) ∈ unlink q i ↔ (j, w) ∈ q ∧ j ≠ i := by simp [unlink]

theorem qinv_unlink {s : WaitUntil.St} (h : QInv s) (i : Nat) (p : Pc) : QInv { s with q := unlink s.q i, pc := WaitUntil.set s.pc i p } := by
  constructor
  · simp only [unlink_map h.nodup]; exact h.nodup.erase _
  · intro j w hj
    obtain ⟨h1, h2⟩ := mem_unlink.1 hj
    show WaitUntil.set s.pc i p j = _
    rw [set_ne _ _ _ h2]; exact h.pend j w h1

theorem not_mem {s : WaitUntil.St} (h : QInv s) {i : Nat} (hp : ∀ w, s.pc i ≠ .pend w) : i ∉ s.q.map (·.1) := by
  intro hi
  obtain ⟨⟨j, w⟩, hj, rfl⟩ := List.mem_map.1 hi
  exact hp w (h.pend j w hj)

theorem qinv_pc {s : WaitUntil.St} (h : QInv s) {i : Nat} (hp : ∀ w, s.pc i ≠ .pend w) (p : Pc) : QInv { s with pc := WaitUntil.set s.pc i p } := by
  refine ⟨h.nodup, ?_⟩
  intro j w hj
  have : j ≠ i := by rintro rfl; exact hp w (h.pend j w hj)
  show WaitUntil.set s.pc i p j = _
  rw [set_ne _ _ _ this]; exact h.pend j w hj

theorem qinv_step {s s' : WaitUntil.St} {a : Act} {e : List Ev} (h : QInv s) (hs : WaitUntil.step s a = some (s', e)) : QInv s' := by
  cases a with
  | start i =>
    simp only [WaitUntil.step] at hs
    split at hs
    · rename_i hp; cases hs; exact qinv_pc h (by intro w; rw [hp]; simp) _
    · cases hs
  | poll i w =>
    simp only [WaitUntil.step] at hs
    split at hs
    · cases hs; exact qinv_unlink h i _
    · cases hs; exact qinv_unlink h i _
    · cases hs
  | go i =>
    simp only [WaitUntil.step] at hs
    split at hs
    · rename_i w hp
      split at hs <;> cases hs <;> exact qinv_pc h (by intro w; rw [hp]; simp) _
    · rename_i w hp
      cases hs
      have hni := not_mem h (i := i) (by intro w; rw [hp]; simp)
      constructor
      · simp only [List.map_append, List.map_cons, List.map_nil]
        rw [List.nodup_append]
        refine ⟨h.nodup, by simp, ?_⟩
        intro a ha b hb
        simp at hb; subst hb
        rintro rfl; exact hni ha
      · intro j w' hj
        simp only [List.mem_append, List.mem_singleton, Prod.mk.injEq] at hj
        by_cases e : j = i
        · subst e
          rcases hj with hj | hj
          · exact absurd (List.mem_map_of_mem (f := (·.1)) hj) hni
          · simp [hj.2]
        · show WaitUntil.set s.pc i _ j = _
          rw [set_ne _ _ _ e]
          rcases hj with hj | hj
          · exact h.pend j w' hj
          · exact absurd hj.1 e
    · cases hs
  | drop i =>
    simp only [WaitUntil.step] at hs
    split at hs
    · cases hs; exact qinv_unlink h i _
    · cases hs; exact qinv_unlink h i _
    · cases hs
  | setCond b => simp only [WaitUntil.step] at hs; cases hs; exact ⟨h.nodup, h.pend⟩
  | notify =>
    simp only [WaitUntil.step] at hs
    split at hs
    · cases hs; exact h
    · rename_i i w q hq
      cases hs
      obtain ⟨h1, h2⟩ := h
      rw [hq] at h1 h2
      exact ⟨(List.nodup_cons.1 h1).2, fun j w' hj => h2 j w' (List.mem_cons_of_mem _ hj)⟩

theorem reach_qinv {s : WaitUntil.St} {tr : List Ev} (h : WaitUntil.Reach s tr) : QInv s := by
  obtain ⟨as, he⟩ := h
  exact exec_induct (P := fun s _ => QInv s) (fun s tr a s' e h hs => qinv_step h hs) as WaitUntil.init [] s tr ⟨by simp [WaitUntil.init], by simp [WaitUntil.init]⟩ he

/-! ## Simulation -/

/-- the pointer machine in the state that corresponds to `s` -/
def mk (s : WaitUntil.St) (q : WQ WData) (fut : Nat → Option Nat) (used : Nat → Bool) : PSt :=
  { q := q, cond := s.cond, fut := fut, used := used, pc := s.pc, bad := false }

/-- the link of waiter `i` -/
def ln (q : List (Nat × Nat)) (pc : Nat → Pc) (i : Nat) : Option (WData × Bool) :=
  match pc i with
  | .pend w => some ({ w := w, who := i }, decide (i ∉ q.map (·.1)))
  | _ => none

structure G (s : WaitUntil.St) (q : WQ WData) (fut : Nat → Option Nat) (used : Nat → Bool) : Prop where
  own : Own q fut (s.q.map (·.1)) (ln s.q s.pc)
  used : ∀ a, used a = true ↔ ∃ i, fut i = some a
  live : ∀ i, fut i ≠ none ↔ s.pc i ≠ .none

theorem G.addr {s : WaitUntil.St} {q fut used} (h : G s q fut used) {i : Nat} (hl : s.pc i ≠ .none) : ∃ a, fut i = some a :=
  Option.ne_none_iff_exists'.1 ((h.live i).2 hl)

theorem ln_unlink {q : List (Nat × Nat)} {pc : Nat → Pc} {i : Nat} {p : Pc} (hq : (q.map (·.1)).Nodup) (hp : ∀ w, p ≠ .pend w) : ln (unlink q i) (WaitUntil.set pc i p) = fset (ln q pc) i none := by
  funext k
  by_cases e : k = i
  · subst e
    simp only [ln, WaitUntil.set_self, fset_same]
  · simp only [ln, set_ne _ _ _ e, fset_ne _ _ e, unlink_map hq, List.mem_erase_of_ne e]

theorem ln_pc {q : List (Nat × Nat)} {pc : Nat → Pc} {i : Nat} {p : Pc} (h0 : ∀ w, pc i ≠ .pend w) (hp : ∀ w, p ≠ .pend w) : ln q (WaitUntil.set pc i p) = ln q pc := by
  funext k
  by_cases e : k = i
  · subst e
    simp only [ln, WaitUntil.set_self]
  · simp only [ln, set_ne _ _ _ e]

theorem live_set {s : WaitUntil.St} {fut : Nat → Option Nat} {i : Nat} {p : Pc} (h : ∀ i, fut i ≠ none ↔ s.pc i ≠ .none) (h0 : s.pc i ≠ .none) (hp : p ≠ .none) : ∀ j, fut j ≠ none ↔ WaitUntil.set s.pc i p j ≠ .none := by
  intro j
  by_cases e : j = i
  · subst e; simp [hp, (h j).2 h0]
  · rw [set_ne _ _ _ e]; exact h j

/-- the closure of the guard -/
theorem guard_sim {s : WaitUntil.St} {q fut used} {i : Nat} (h : G s q fut used) (hI : QInv s) (hl : s.pc i ≠ .none) :
    ∃ q', guard (mk s q fut used) i = mk s q' fut used ∧ Own q' fut ((unlink s.q i).map (·.1)) (fset (ln s.q s.pc) i none) := by
  obtain ⟨a, ha⟩ := h.addr hl
  obtain ⟨r1, r2⟩ := h.own.read ha
  have hf : (mk s q fut used).fut i = some a := ha
  rw [unlink_map hI.nodup]
  cases hx : ln s.q s.pc i with
  | none =>
    have hq : (mk s q fut used).q.mem a = none := r1 hx
    have hni : i ∉ s.q.map (·.1) := by
      refine not_mem hI fun w hw => ?_
      simp [ln, hw] at hx
    refine ⟨q, by simp only [guard, hf, hq], ?_⟩
    have e1 : fset (ln s.q s.pc) i none = ln s.q s.pc := by funext k; simp only [fset]; split; subst k; rw [hx]; rfl
    rw [e1, List.erase_of_not_mem hni]
    exact h.own
  | some x =>
    obtain ⟨m, hmm, -, -⟩ := r2 x.1 x.2 hx
    have hq : (mk s q fut used).q.mem a = some m := hmm
    obtain ⟨q', hq', ho⟩ := h.own.remove ha hx hI.nodup
    have hq1 : (mk s q fut used).q.remove a = some q' := hq'
    have hni : i ∉ (s.q.map (·.1)).erase i := by rw [hI.nodup.mem_erase_iff]; simp
    refine ⟨q'.free a, by simp only [guard, hf, hq, hq1]; rfl, ?_⟩
    have e1 : fset (fset (ln s.q s.pc) i (some (x.1, true))) i none = fset (ln s.q s.pc) i none := by funext k; simp only [fset]; split <;> rfl
    rw [← e1]
    exact ho.take ha hni

theorem finish_sim {s : WaitUntil.St} {q fut used} {i : Nat} (h : G s q fut used) (hI : QInv s) (hl : s.pc i ≠ .none) :
    ∃ q' fut' used', ({ finish (mk s q fut used) i with pc := fset s.pc i .none } : PSt) = mk { s with q := unlink s.q i, pc := WaitUntil.set s.pc i .none } q' fut' used' ∧
      G { s with q := unlink s.q i, pc := WaitUntil.set s.pc i .none } q' fut' used' := by
  obtain ⟨a, ha⟩ := h.addr hl
  have hf : (mk s q fut used).fut i = some a := ha
  obtain ⟨q', hg, ho⟩ := guard_sim h hI hl
  refine ⟨q', fset fut i none, fset used a false, ?_, ?_, ?_, ?_⟩
  · simp only [finish, hf, hg]; rfl
  · simp only [ln_unlink hI.nodup (p := .none) (by simp)]
    refine ho.release (by simp) ?_
    rw [unlink_map hI.nodup, hI.nodup.mem_erase_iff]; simp
  · intro b
    by_cases e : b = a
    · subst e
      simp only [fset_same, Bool.false_eq_true, false_iff, not_exists]
      intro k hk
      by_cases e' : k = i
      · subst e'; simp at hk
      · rw [fset_ne _ _ e'] at hk; exact e' (h.own.inj _ _ _ hk ha)
    · rw [fset_ne _ _ e, h.used b]
      constructor
      · rintro ⟨k, hk⟩
        refine ⟨k, ?_⟩
        rw [fset_ne _ _ (by rintro rfl; rw [ha] at hk; exact e (by simpa using hk.symm))]; exact hk
      · rintro ⟨k, hk⟩
        by_cases e' : k = i
        · subst e'; simp at hk
        · rw [fset_ne _ _ e'] at hk; exact ⟨k, hk⟩
  · intro k
    by_cases e : k = i
    · subst e; simp
    · rw [fset_ne _ _ e]; simp only [set_ne _ _ _ e]; exact h.live k

theorem unlink_noop {s : WaitUntil.St} (hI : QInv s) {i : Nat} (hp : ∀ w, s.pc i ≠ .pend w) : unlink s.q i = s.q := by
  simp only [unlink, List.filter_eq_self]
  rintro ⟨j, w⟩ hj
  have : j ≠ i := by rintro rfl; exact hp w (hI.pend j w hj)
  simp [this]

theorem step_sim {x : Nat} {a : Act} {s : WaitUntil.St} {q fut used} (h : G s q fut used) (hI : QInv s) :
    (WaitUntil.step s a = none → step (mk s q fut used) a x = none) ∧
    ∀ s' e, WaitUntil.step s a = some (s', e) → (∀ i, a = .start i → used x = false) → ∃ q' fut' used', step (mk s q fut used) a x = some (mk s' q' fut' used', e) ∧ G s' q' fut' used' := by
  have hm : (mk s q fut used).pc = s.pc := rfl
  cases a with
  | start i =>
    by_cases hp : s.pc i = .none
    · refine ⟨(by intro he; simp only [WaitUntil.step, if_pos hp] at he; cases he), ?_⟩
      intro s' e he hf
      have hf := hf i rfl
      simp only [WaitUntil.step, if_pos hp] at he
      cases he
      have hn : fut i = none := by
        cases hfi : fut i with
        | none => rfl
        | some a => exact absurd hp ((h.live i).1 (by simp [hfi]))
      have hfx : ∀ j, fut j ≠ some x := by
        intro j hj
        have := (h.used x).2 ⟨j, hj⟩
        rw [hf] at this; cases this
      refine ⟨q, fset fut i (some x), fset used x true, ?_, ?_, ?_, ?_⟩
      · simp only [step, hm]; rw [if_pos ⟨hp, hf⟩]; rfl
      · simp only [ln_pc (q := s.q) (pc := s.pc) (i := i) (p := .new) (by simp [hp]) (by simp)]
        exact h.own.alloc hn hfx
      · intro b
        by_cases e : b = x
        · subst e; simp; exact ⟨i, by simp⟩
        · rw [fset_ne _ _ e, h.used b]
          constructor
          · rintro ⟨k, hk⟩
            exact ⟨k, by rw [fset_ne _ _ (by rintro rfl; rw [hn] at hk; cases hk)]; exact hk⟩
          · rintro ⟨k, hk⟩
            by_cases e' : k = i
            · subst e'; simp at hk; exact absurd hk.symm e
            · rw [fset_ne _ _ e'] at hk; exact ⟨k, hk⟩
      · intro k
        by_cases e : k = i
        · subst e; simp
        · rw [fset_ne _ _ e]; simp only [set_ne _ _ _ e]; exact h.live k
    · exact ⟨(by intro _; simp only [step, hm]; rw [if_neg (fun hh => hp hh.1)]), (by intro s' e he; simp only [WaitUntil.step, if_neg hp] at he; cases he)⟩
  | poll i w =>
    have hh : s.pc i ≠ .none → ∃ q', ({ guard (mk s q fut used) i with pc := fset s.pc i (.cleaned w) } : PSt) = mk { s with q := unlink s.q i, pc := WaitUntil.set s.pc i (.cleaned w) } q' fut used ∧
        G { s with q := unlink s.q i, pc := WaitUntil.set s.pc i (.cleaned w) } q' fut used := by
      intro hl
      obtain ⟨q', hg, ho⟩ := guard_sim h hI hl
      refine ⟨q', by rw [hg]; rfl, ?_, h.used, live_set h.live hl (by simp)⟩
      simp only [ln_unlink hI.nodup (p := .cleaned w) (by simp)]
      exact ho
    cases hp : s.pc i
    case new =>
      refine ⟨(by intro he; simp only [WaitUntil.step, hp] at he; cases he), ?_⟩
      intro s' e he _
      simp only [WaitUntil.step, hp] at he
      cases he
      obtain ⟨q', h1, h2⟩ := hh (by simp [hp])
      exact ⟨q', fut, used, by simp only [step, hm, hp]; rw [← h1], h2⟩
    case pend w' =>
      refine ⟨(by intro he; simp only [WaitUntil.step, hp] at he; cases he), ?_⟩
      intro s' e he _
      simp only [WaitUntil.step, hp] at he
      cases he
      obtain ⟨q', h1, h2⟩ := hh (by simp [hp])
      exact ⟨q', fut, used, by simp only [step, hm, hp]; rw [← h1], h2⟩
    all_goals exact ⟨(by intro _; simp only [step, hm, hp]), (by intro s' e he; simp only [WaitUntil.step, hp] at he; cases he)⟩
  | go i =>
    cases hp : s.pc i
    case cleaned w =>
      cases hc : s.cond with
      | true =>
        have hcc : (mk s q fut used).cond = true := hc
        refine ⟨(by intro he; simp only [WaitUntil.step, hp, hc, if_true] at he; cases he), ?_⟩
        intro s' e he _
        simp only [WaitUntil.step, hp, hc, if_true] at he
        cases he
        obtain ⟨q', fut', used', h1, h2⟩ := finish_sim h hI (i := i) (by simp [hp])
        rw [unlink_noop hI (by simp [hp])] at h1 h2
        exact ⟨q', fut', used', by simp only [step, hm, hp, hcc, if_true]; rw [h1]; simp only [mk, hc], h2.own, h2.used, h2.live⟩
      | false =>
        have hcc : (mk s q fut used).cond = false := hc
        refine ⟨(by intro he; simp only [WaitUntil.step, hp, hc, Bool.false_eq_true, if_false] at he; cases he), ?_⟩
        intro s' e he _
        simp only [WaitUntil.step, hp, hc, Bool.false_eq_true, if_false] at he
        cases he
        refine ⟨q, fut, used, by simp only [step, hm, hp, hcc, Bool.false_eq_true, if_false]; simp only [mk, hc]; rfl, ?_, h.used, live_set h.live (by simp [hp]) (by simp)⟩
        simp only [ln_pc (q := s.q) (pc := s.pc) (i := i) (p := .checked w) (by simp [hp]) (by simp)]
        exact h.own
    case checked w =>
      obtain ⟨b, hb⟩ := h.addr (i := i) (by simp [hp])
      have hf : (mk s q fut used).fut i = some b := hb
      have hni := not_mem hI (i := i) (by simp [hp])
      obtain ⟨q', hq', ho⟩ := h.own.push hb hni { w := w, who := i }
      have hq1 : ((mk s q fut used).q.newLink b { w := w, who := i }).push b = some q' := hq'
      refine ⟨(by intro he; simp only [WaitUntil.step, hp] at he; cases he), ?_⟩
      intro s' e he _
      simp only [WaitUntil.step, hp] at he
      cases he
      refine ⟨q', fut, used, by simp only [step, hm, hp, hf, hq1]; rfl, ?_, h.used, live_set h.live (by simp [hp]) (by simp)⟩
      have e1 : ln (s.q ++ [(i, w)]) (WaitUntil.set s.pc i (.pend w)) = fset (ln s.q s.pc) i (some ({ w := w, who := i }, false)) := by
        funext k
        by_cases e : k = i
        · subst e; simp [ln]
        · simp only [ln, set_ne _ _ _ e, fset_ne _ _ e, List.map_append, List.mem_append, List.map_cons, List.map_nil, List.mem_singleton, e, or_false]
      simp only [e1, List.map_append, List.map_cons, List.map_nil]
      exact ho
    all_goals exact ⟨(by intro _; simp only [step, hm, hp]), (by intro s' e he; simp only [WaitUntil.step, hp] at he; cases he)⟩
  | drop i =>
    cases hp : s.pc i
    case new =>
      refine ⟨(by intro he; simp only [WaitUntil.step, hp] at he; cases he), ?_⟩
      intro s' e he _
      simp only [WaitUntil.step, hp] at he
      cases he
      obtain ⟨q', fut', used', h1, h2⟩ := finish_sim h hI (i := i) (by simp [hp])
      exact ⟨q', fut', used', by simp only [step, hm, hp]; rw [← h1], h2⟩
    case pend w' =>
      refine ⟨(by intro he; simp only [WaitUntil.step, hp] at he; cases he), ?_⟩
      intro s' e he _
      simp only [WaitUntil.step, hp] at he
      cases he
      obtain ⟨q', fut', used', h1, h2⟩ := finish_sim h hI (i := i) (by simp [hp])
      exact ⟨q', fut', used', by simp only [step, hm, hp]; rw [← h1], h2⟩
    all_goals exact ⟨(by intro _; simp only [step, hm, hp]), (by intro s' e he; simp only [WaitUntil.step, hp] at he; cases he)⟩
  | setCond b =>
    refine ⟨(by intro he; simp only [WaitUntil.step] at he; cases he), ?_⟩
    intro s' e he _
    simp only [WaitUntil.step] at he
    cases he
    exact ⟨q, fut, used, rfl, h.own, h.used, h.live⟩
  | notify =>
    cases hw : s.q with
    | nil =>
      have ho := h.own
      rw [hw] at ho
      have hpop : (mk s q fut used).q.pop = some (q, none) := Own.popNil ho
      refine ⟨(by intro he; simp only [WaitUntil.step, hw] at he; cases he), ?_⟩
      intro s' e he _
      simp only [WaitUntil.step, hw] at he
      cases he
      exact ⟨q, fut, used, by simp only [step, hpop]; rfl, h⟩
    | cons y wq =>
      obtain ⟨j, w⟩ := y
      have hpj := hI.pend j w (by simp [hw])
      have ho := h.own
      rw [hw] at ho
      simp only [List.map_cons] at ho
      obtain ⟨q', v, hv, hpop, ho'⟩ := ho.pop
      simp only [ln, hpj, Option.some.injEq, Prod.mk.injEq] at hv
      obtain ⟨rfl, -⟩ := hv
      have hpop' : (mk s q fut used).q.pop = _ := hpop
      refine ⟨(by intro he; simp only [WaitUntil.step, hw] at he; cases he), ?_⟩
      intro s' e he _
      simp only [WaitUntil.step, hw] at he
      cases he
      refine ⟨q', fut, used, by simp only [step, hpop']; rfl, ?_, h.used, h.live⟩
      have hnj : j ∉ wq.map (·.1) := by
        have := hI.nodup; rw [hw] at this; exact (List.nodup_cons.1 this).1
      have e1 : ln wq s.pc = fset (ln ((j, w) :: wq) s.pc) j (some ({ w := w, who := j }, true)) := by
        funext k
        by_cases e : k = j
        · subst e; simp only [ln, hpj, fset_same]; simp only [hnj, not_false_eq_true, decide_true]
        · simp only [ln, fset_ne _ _ e, List.map_cons, List.mem_cons, e, false_or]
      simp only [e1]
      exact ho'

/-- Every step of the pointer machine is a step of the list-level machine, with the same event. -/
theorem step_back {x : Nat} {a : Act} {s : WaitUntil.St} {q fut used} {p' : PSt} {e : List Ev} (h : G s q fut used) (hI : QInv s) (hs : step (mk s q fut used) a x = some (p', e)) :
    ∃ s' q' fut' used', p' = mk s' q' fut' used' ∧ WaitUntil.step s a = some (s', e) ∧ G s' q' fut' used' := by
  have hf : ∀ i, a = .start i → used x = false := by
    rintro i rfl
    simp only [step] at hs
    split at hs
    · rename_i hh; exact hh.2
    · cases hs
  cases ha : WaitUntil.step s a with
  | none => rw [(step_sim h hI).1 ha] at hs; cases hs
  | some r =>
    obtain ⟨q', fut', used', h1, h2⟩ := (step_sim (x := x) h hI).2 r.1 r.2 ha hf
    rw [h1] at hs
    cases hs
    exact ⟨_, _, _, _, rfl, rfl, h2⟩

theorem g_init : G WaitUntil.init WaitQueue.empty (fun _ => none) (fun _ => false) := by
  refine ⟨?_, by simp, by simp [WaitUntil.init]⟩
  have : ln WaitUntil.init.q WaitUntil.init.pc = fun _ => none := by funext k; simp [ln, WaitUntil.init]
  rw [this]; exact own_init

theorem reach_step {s s' : WaitUntil.St} {tr e : List Ev} {a : Act} (h : WaitUntil.Reach s tr) (hs : WaitUntil.step s a = some (s', e)) : WaitUntil.Reach s' (tr ++ e) := by
  obtain ⟨as, he⟩ := h
  refine ⟨as ++ [a], ?_⟩
  have : ∀ (as : List Act) (s0 : WaitUntil.St) (es : List Ev), WaitUntil.exec s0 as = some (s, es) → WaitUntil.exec s0 (as ++ [a]) = some (s', es ++ e) := by
    intro as
    induction as with
    | nil => intro s0 es h; simp only [WaitUntil.exec] at h; cases h; simp [WaitUntil.exec, hs]
    | cons b as ih =>
      intro s0 es h
      simp only [WaitUntil.exec] at h
      split at h
      · cases h
      · rename_i s1 e1 h1
        split at h
        · cases h
        · rename_i s2 e2 h2
          cases h
          simp [WaitUntil.exec, h1, ih _ _ h2]
  exact this as _ _ he

theorem exec_back : ∀ (as : List (Act × Nat)) (s : WaitUntil.St) (q fut used) (p' : PSt) (tr e : List Ev), G s q fut used → WaitUntil.Reach s tr → exec (mk s q fut used) as = some (p', e) →
    ∃ s' q' fut' used', p' = mk s' q' fut' used' ∧ WaitUntil.Reach s' (tr ++ e) ∧ G s' q' fut' used'
  | [], s, q, fut, used, p', tr, e, h, hr, he => by cases he; exact ⟨s, q, fut, used, rfl, by simpa using hr, h⟩
  | a :: as, s, q, fut, used, p', tr, e, h, hr, he => by
    simp only [exec] at he
    split at he
    · cases he
    · rename_i p1 e1 h1
      split at he
      · cases he
      · rename_i p2 e2 h2
        cases he
        obtain ⟨s', q', fut', used', rfl, hs, hg⟩ := step_back h (reach_qinv hr) h1
        obtain ⟨s2, q2, fut2, used2, hp, hr2, hg2⟩ := exec_back as s' q' fut' used' _ (tr ++ e1) e2 hg (reach_step hr hs) h2
        exact ⟨s2, q2, fut2, used2, hp, by simpa using hr2, hg2⟩

theorem reach_back {p : PSt} {tr : List Ev} (h : Reach p tr) : ∃ s q fut used, p = mk s q fut used ∧ WaitUntil.Reach s tr ∧ G s q fut used := by
  obtain ⟨as, he⟩ := h
  obtain ⟨s, q, fut, used, h1, h2, h3⟩ := exec_back as WaitUntil.init WaitQueue.empty (fun _ => none) (fun _ => false) p [] tr g_init ⟨[], rfl⟩ he
  exact ⟨s, q, fut, used, h1, by simpa using h2, h3⟩

theorem guard_fut (p : PSt) (i : Nat) : (guard p i).fut = p.fut := by
  simp only [guard]
  repeat' split
  all_goals rfl

theorem finish_fut (p : PSt) (i j : Nat) : (finish p i).fut j = p.fut j ∨ (finish p i).fut j = none := by
  simp only [finish]
  split
  · exact Or.inl rfl
  · simp only [fset]; split <;> simp

theorem step_fut {x : Nat} {a : Act} {p p' : PSt} {e : List Ev} (h : step p a x = some (p', e)) (j : Nat) :
    p'.fut j = p.fut j ∨ p'.fut j = none ∨ (a = .start j ∧ p'.fut j = some x) := by
  have hfin : ∀ i, (finish p i).fut j = p.fut j ∨ (finish p i).fut j = none ∨ (a = .start j ∧ (finish p i).fut j = some x) := fun i => by
    rcases finish_fut p i j with h | h
    · exact Or.inl h
    · exact Or.inr (Or.inl h)
  cases a with
  | start i =>
    simp only [step] at h
    split at h
    · cases h
      by_cases e : j = i
      · subst e; right; right; exact ⟨rfl, by simp⟩
      · left; simp [fset_ne _ _ e]
    · cases h
  | poll i w =>
    simp only [step] at h
    split at h
    · cases h; left; show (guard p i).fut j = _; rw [guard_fut]
    · cases h; left; show (guard p i).fut j = _; rw [guard_fut]
    · cases h
  | go i =>
    simp only [step] at h
    (repeat' split at h) <;> (try cases h) <;> first | exact Or.inl rfl | exact hfin i
  | drop i =>
    simp only [step] at h
    (repeat' split at h) <;> (try cases h) <;> exact hfin i
  | _ =>
    simp only [step] at h
    (repeat' split at h) <;> (try cases h) <;> exact Or.inl rfl

theorem exec_fwd : ∀ (as : List Act) (s : WaitUntil.St) (q fut used) (s' : WaitUntil.St) (tr e : List Ev), G s q fut used → (∀ i a, fut i = some a → a = i) → WaitUntil.Reach s tr → WaitUntil.exec s as = some (s', e) →
    ∃ bs q' fut' used', exec (mk s q fut used) bs = some (mk s' q' fut' used', e) ∧ bs.map (·.1) = as
  | [], s, q, fut, used, s', tr, e, h, hc, hr, he => by cases he; exact ⟨[], q, fut, used, rfl, rfl⟩
  | a :: as, s, q, fut, used, s', tr, e, h, hc, hr, he => by
    simp only [WaitUntil.exec] at he
    split at he
    · cases he
    · rename_i p1 e1 h1
      split at he
      · cases he
      · rename_i p2 e2 h2
        cases he
        have hx : ∃ x, (∀ i, a = .start i → x = i ∧ used x = false) := by
          cases a with
          | start i =>
            refine ⟨i, fun i' hh => ?_⟩
            cases hh
            refine ⟨rfl, ?_⟩
            cases hu : used i with
            | false => rfl
            | true =>
              obtain ⟨k, hk⟩ := (h.used i).1 hu
              have := hc k i hk; subst this
              have hp : s.pc i = .none := by
                simp only [WaitUntil.step] at h1
                split at h1
                · assumption
                · cases h1
              exact absurd hp ((h.live i).1 (by simp [hk]))
          | _ => exact ⟨0, by intro i hh; cases hh⟩
        obtain ⟨x, hx⟩ := hx
        obtain ⟨q', fut', used', hs, hg⟩ := (step_sim (x := x) h (reach_qinv hr)).2 _ _ h1 fun i hh => (hx i hh).2
        have hc' : ∀ i a, fut' i = some a → a = i := by
          intro i b hb
          rcases step_fut hs i with h3 | h3 | ⟨h3, h4⟩
          · exact hc i b (by rw [← hb]; exact h3.symm)
          · have : fut' i = none := h3; rw [hb] at this; cases this
          · have : fut' i = some x := h4
            rw [hb] at this
            have := (hx i h3).1
            grind
        obtain ⟨bs, q2, fut2, used2, hb, hm⟩ := exec_fwd as p1 q' fut' used' _ (tr ++ e1) e2 hg hc' (reach_step hr h1) h2
        exact ⟨(a, x) :: bs, q2, fut2, used2, by simp [exec, hs, hb], by simp [hm]⟩

/-! ## Theorems -/

/-- **C80** No access to memory that is not a live link, whatever addresses the futures have and however the memory of gone futures is reused. -/
theorem C80_wait_until_no_fault {p : PSt} {tr : List Ev} (h : Reach p tr) : p.bad = false := by
  obtain ⟨s, q, fut, used, rfl, -, -⟩ := reach_back h
  rfl

/-- **C80** Every history of `wait_until` on the intrusive queue is a history of the list-level machine (`Verif.WaitUntil`): C14 holds of it. -/
theorem C80_wait_until_refines {p : PSt} {tr : List Ev} (h : Reach p tr) : ∃ s, WaitUntil.Reach s tr ∧ p.cond = s.cond ∧ p.pc = s.pc := by
  obtain ⟨s, q, fut, used, rfl, hr, -⟩ := reach_back h
  exact ⟨s, hr, rfl, rfl⟩

/-- **C80** And conversely: the intrusive queue never blocks a history. -/
theorem C80_wait_until_complete {s : WaitUntil.St} {tr : List Ev} (h : WaitUntil.Reach s tr) : ∃ p, Reach p tr ∧ p.cond = s.cond ∧ p.pc = s.pc := by
  obtain ⟨as, he⟩ := h
  obtain ⟨bs, q, fut, used, hb, -⟩ := exec_fwd as WaitUntil.init WaitQueue.empty (fun _ => none) (fun _ => false) s [] tr g_init (by simp) ⟨[], rfl⟩ he
  exact ⟨_, ⟨bs, hb⟩, rfl, rfl⟩

/-- **C80** The queue is a consistent doubly linked list, its nodes are exactly the not yet popped links of pending futures, and there is no link outside the memory of a pending future. -/
theorem C80_wait_until_linked {p : PSt} {tr : List Ev} (h : Reach p tr) :
    ∃ as, Linked p.q as ∧
      (∀ a, a ∈ as ↔ ∃ l, p.q.mem a = some l ∧ l.isPopped = false) ∧
      (∀ a l, p.q.mem a = some l → ∃ i, p.fut i = some a ∧ p.pc i = .pend l.val.w ∧ l.val.who = i) ∧
      (∀ i j a, p.fut i = some a → p.fut j = some a → i = j) := by
  obtain ⟨s, q, fut, used, rfl, hr, hg⟩ := reach_back h
  obtain ⟨as, hm, hl⟩ := hg.own.linked
  have hlink : ∀ a l, q.mem a = some l → ∃ i, fut i = some a ∧ ln s.q s.pc i = some (l.val, l.isPopped) := by
    intro a l hal
    by_cases hx : ∃ i, fut i = some a
    · obtain ⟨i, hi⟩ := hx
      refine ⟨i, hi, ?_⟩
      rw [← hg.own.mem i a hi, hal]; rfl
    · have := hg.own.rest a (by simpa using hx)
      rw [hal] at this; cases this
  have hln : ∀ i v b, ln s.q s.pc i = some (v, b) → s.pc i = .pend v.w ∧ v.who = i ∧ b = decide (i ∉ s.q.map (·.1)) := by
    intro i v b hi
    simp only [ln] at hi
    split at hi
    · rename_i w hp
      simp only [Option.some.injEq, Prod.mk.injEq] at hi
      obtain ⟨rfl, rfl⟩ := hi
      exact ⟨hp, rfl, rfl⟩
    · cases hi
  refine ⟨as, hl, ?_, ?_, hg.own.inj⟩
  · intro a
    constructor
    · intro ha
      obtain ⟨k, hk⟩ := List.mem_iff_getElem?.1 ha
      obtain ⟨l, h1, h2, -⟩ := hl.2.2.2 k a hk
      exact ⟨l, h1, h2⟩
    · rintro ⟨l, h1, h2⟩
      obtain ⟨i, hi, hx⟩ := hlink a l h1
      obtain ⟨-, -, hd⟩ := hln _ _ _ hx
      rw [h2] at hd
      exact (mem_iff hg.own.inj hm hi).2 (Classical.byContradiction fun hn => by simp only [hn, not_false_eq_true, decide_true] at hd; cases hd)
  · intro a l hal
    obtain ⟨i, hi, hx⟩ := hlink a l hal
    obtain ⟨h1, h2, -⟩ := hln _ _ _ hx
    exact ⟨i, hi, h1, h2⟩

/-! Concrete, non-trivial case: waiter 1 (memory at address 50) and waiter 2 wait; waiter 1 is dropped and waiter 3 waits in the same memory; one notification wakes waiter 2, the next waiter 3. -/
def demo : List (Act × Nat) :=
  [(.start 1, 50), (.poll 1 11, 0), (.go 1, 0), (.go 1, 0), (.start 2, 60), (.poll 2 12, 0), (.go 2, 0), (.go 2, 0), (.drop 1, 0),
   (.start 3, 50), (.poll 3 13, 0), (.go 3, 0), (.go 3, 0), (.setCond true, 0), (.notify, 0), (.notify, 0), (.poll 2 12, 0), (.go 2, 0)]

example : (exec init demo).map (fun r => (r.1.bad, r.1.pc 3, r.1.q.mem 50 |>.map (fun l => (l.val.who, l.isPopped)), r.1.q.mem 60 |>.map (fun l => l.val.who), r.2)) =
    some (false, .pend 13, some (3, true), none, [.pending 1 11, .pending 2 12, .pending 3 13, .setCond true, .woke 2 12, .woke 3 13, .ready 2]) := by rfl

/-- the address of a live future cannot be used by another one -/
example : (exec init (demo ++ [(.start 1, 50)])).isNone = true := by rfl
example : (exec init (demo ++ [(.start 1, 60)])).isSome = true := by rfl

end Verif.Intrusive.Wait
