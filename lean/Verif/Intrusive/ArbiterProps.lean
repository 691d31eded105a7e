import Verif.Intrusive.Arbiter

/-! # C80 (arbiter): waiting `access` futures are never accessed after they are gone -/

namespace Verif.Intrusive.Arb

open Verif.WaitQueue Verif.Arbiter

/-- the pointer machine in the state that corresponds to `s` -/
def mk (s : Arbiter.St) (q : WQ WData) (fut : Nat → Option Nat) (used : Nat → Bool) : PSt :=
  { taken := s.taken, q := q, fut := fut, used := used, pc := s.pc, bad := false }

def live (p : Pc) : Bool := match p with | .fut | .got => true | _ => false

def ln (lk : Nat → Option Lk) (i : Nat) : Option (WData × Bool) := (lk i).map fun l => ({ w := l.w, who := i }, l.popped)

structure G (s : Arbiter.St) (q : WQ WData) (fut : Nat → Option Nat) (used : Nat → Bool) : Prop where
  own : Own q fut s.wq (ln s.lk)
  used : ∀ a, used a = true ↔ ∃ i, fut i = some a
  live : ∀ i, fut i ≠ none ↔ live (s.pc i) = true

theorem ln_set (lk : Nat → Option Lk) (i : Nat) (x : Option Lk) : ln (Arbiter.set lk i x) = fset (ln lk) i (x.map fun l => ({ w := l.w, who := i }, l.popped)) := by
  funext k
  by_cases e : k = i
  · subst e; simp [ln]
  · simp [ln, Arbiter.set, fset_ne _ _ e, e]

theorem live_set {s : Arbiter.St} {i : Nat} {p : Pc} (h : live p = live (s.pc i)) : ∀ j, live (Arbiter.set s.pc i p j) = live (s.pc j) := by
  intro j; by_cases e : j = i
  · subst e; simpa using h
  · simp [Arbiter.set, e]

theorem G.congr {s s' : Arbiter.St} {q fut used} (h : G s q fut used) (h1 : s'.wq = s.wq) (h2 : s'.lk = s.lk) (h4 : ∀ i, Arb.live (s'.pc i) = Arb.live (s.pc i)) : G s' q fut used := by
  obtain ⟨a, b, d⟩ := h
  exact ⟨by rw [h1, h2]; exact a, b, by intro i; rw [h4]; exact d i⟩

theorem G.addr {s : Arbiter.St} {q fut used} (h : G s q fut used) {i : Nat} (hl : Arb.live (s.pc i) = true) : ∃ a, fut i = some a :=
  Option.ne_none_iff_exists'.1 ((h.live i).2 hl)

theorem dropper_sim {s : Arbiter.St} {q fut used} {i : Nat} {p' : Pc} (h : G s q fut used) (hn : s.wq.Nodup) (hm : ∀ i, i ∈ s.wq → s.lk i ≠ none) (hl : live (s.pc i) = true) (hp : live p' = false) :
    ∃ q' fut' used', ({ dropper (mk s q fut used) i with pc := fset s.pc i p' } : PSt) = mk { s with wq := s.wq.erase i, lk := Arbiter.set s.lk i none, pc := Arbiter.set s.pc i p' } q' fut' used' ∧
      G { s with wq := s.wq.erase i, lk := Arbiter.set s.lk i none, pc := Arbiter.set s.pc i p' } q' fut' used' := by
  obtain ⟨a, ha⟩ := h.addr hl
  obtain ⟨r1, r2⟩ := h.own.read ha
  have hf : (mk s q fut used).fut i = some a := ha
  have hused : ∀ b, fset used a false b = true ↔ ∃ k, fset fut i none k = some b := by
    intro b
    by_cases e : b = a
    · subst e
      simp only [fset_same, Bool.false_eq_true, false_iff, not_exists]
      intro k hk
      by_cases e' : k = i
      · subst e'; simp at hk
      · rw [fset_ne _ _ e'] at hk; exact e' (h.own.inj _ _ _ hk ha)
    · rw [fset_ne _ _ e, h.used b]
      constructor
      · rintro ⟨k, hk⟩
        refine ⟨k, ?_⟩
        rw [fset_ne _ _ (by rintro rfl; rw [ha] at hk; exact e (by simpa using hk.symm))]; exact hk
      · rintro ⟨k, hk⟩
        by_cases e' : k = i
        · subst e'; simp at hk
        · rw [fset_ne _ _ e'] at hk; exact ⟨k, hk⟩
  have hlive : ∀ k, fset fut i none k ≠ none ↔ live (Arbiter.set s.pc i p' k) = true := by
    intro k
    by_cases e : k = i
    · subst e; simp [hp]
    · rw [fset_ne _ _ e]; simp only [Arbiter.set, e, if_false]; exact h.live k
  cases hlk : s.lk i with
  | none =>
    have hq : (mk s q fut used).q.mem a = none := r1 (by simp [ln, hlk])
    have hni : i ∉ s.wq := fun hi => hm i hi hlk
    refine ⟨q, fset fut i none, fset used a false, by simp only [dropper, hf, hq]; rfl, ?_, hused, hlive⟩
    have e1 : Arbiter.set s.lk i none = s.lk := by funext k; by_cases e : k = i; subst e; simp [hlk]; simp [Arbiter.set, e]
    simp only [e1, List.erase_of_not_mem hni]
    exact h.own.release (by simp [ln, hlk]) hni
  | some l =>
    obtain ⟨m, hmm, -, -⟩ := r2 { w := l.w, who := i } l.popped (by simp [ln, hlk])
    have hq : (mk s q fut used).q.mem a = some m := hmm
    obtain ⟨q', hq', ho⟩ := h.own.remove (i := i) (a := a) (x := ({ w := l.w, who := i }, l.popped)) ha (by simp [ln, hlk]) hn
    have hq1 : (mk s q fut used).q.remove a = some q' := hq'
    have hni : i ∉ s.wq.erase i := by rw [hn.mem_erase_iff]; simp
    have ho2 := ho.take ha hni
    refine ⟨q'.free a, fset fut i none, fset used a false, by simp only [dropper, hf, hq, hq1]; rfl, ?_, hused, hlive⟩
    simp only [ln_set, Option.map_none]
    have e1 : fset (fset (ln s.lk) i (some (({ w := l.w, who := i } : WData), true))) i none = fset (ln s.lk) i none := by funext k; simp only [fset]; split <;> rfl
    rw [← e1]
    exact ho2.release (by simp) hni

theorem step_sim {x : Nat} {a : Act} {s : Arbiter.St} {q fut used own} (h : G s q fut used) (hI : Inv s own) :
    (Arbiter.step s a = none → step (mk s q fut used) a x = none) ∧
    ∀ s' e, Arbiter.step s a = some (s', e) → (∀ i, a = .access i → used x = false) → ∃ q' fut' used', step (mk s q fut used) a x = some (mk s' q' fut' used', e) ∧ G s' q' fut' used' := by
  have hm : (mk s q fut used).pc = s.pc := rfl
  have hmem : ∀ i, i ∈ s.wq → s.lk i ≠ none := by
    intro i hi hn
    obtain ⟨-, l, hl, -⟩ := (hI.mem i).1 hi
    rw [hl] at hn; cases hn
  have hemp : ((mk s q fut used).q.isEmpty = true ∧ (mk s q fut used).taken = false) ↔ (s.wq = [] ∧ s.taken = false) := by
    show (q.isEmpty = true ∧ s.taken = false) ↔ _
    rw [h.own.isEmpty]; simp
  cases a with
  | access i =>
    cases hp : s.pc i with
    | none =>
      refine ⟨(by intro he; simp only [Arbiter.step, hp] at he; cases he), ?_⟩
      intro s' e he hf
      have hf := hf i rfl
      simp only [Arbiter.step, hp] at he
      cases he
      have hn : fut i = none := by
        cases hfi : fut i with
        | none => rfl
        | some a => have := (h.live i).1 (by simp [hfi]); simp [hp, live] at this
      have hfx : ∀ j, fut j ≠ some x := by
        intro j hj
        have := (h.used x).2 ⟨j, hj⟩
        rw [hf] at this; cases this
      have hlk : s.lk i = none := by
        cases hl : s.lk i with
        | none => rfl
        | some l => exact absurd hn (h.own.live i (by simp [ln, hl]))
      refine ⟨q, fset fut i (some x), fset used x true, ?_, ?_, ?_, ?_⟩
      · simp only [step, hm, hp]; rw [if_pos (show (mk s q fut used).used x = false from hf)]; rfl
      · have e1 : Arbiter.set s.lk i none = s.lk := by funext k; by_cases e : k = i; subst e; simp [hlk]; simp [Arbiter.set, e]
        simp only [e1]
        exact h.own.alloc hn hfx
      · intro b
        by_cases e : b = x
        · subst e; simp; exact ⟨i, by simp⟩
        · rw [fset_ne _ _ e, h.used b]
          constructor
          · rintro ⟨k, hk⟩
            exact ⟨k, by rw [fset_ne _ _ (by rintro rfl; rw [hn] at hk; cases hk)]; exact hk⟩
          · rintro ⟨k, hk⟩
            by_cases e' : k = i
            · subst e'; simp at hk; exact absurd hk.symm e
            · rw [fset_ne _ _ e'] at hk; exact ⟨k, hk⟩
      · intro k
        by_cases e : k = i
        · subst e; simp [live]
        · rw [fset_ne _ _ e]; simp only [Arbiter.set, e, if_false]; exact h.live k
    | _ => exact ⟨(by intro _; simp only [step, hm, hp]), (by intro s' e he; simp only [Arbiter.step, hp] at he; cases he)⟩
  | poll i w =>
    cases hp : s.pc i with
    | fut =>
      by_cases hc : s.wq = [] ∧ s.taken = false
      · refine ⟨(by intro he; simp only [Arbiter.step, hp, if_pos hc] at he; cases he), ?_⟩
        intro s' e he _
        simp only [Arbiter.step, hp, if_pos hc] at he
        cases he
        exact ⟨q, fut, used, by simp only [step, hm, hp, if_pos (hemp.2 hc)]; rfl, h.congr rfl rfl (live_set (by simp [hp, live]))⟩
      · have hc' := fun hh => hc (hemp.1 hh)
        obtain ⟨b, hb⟩ := h.addr (i := i) (by simp [hp, live])
        have hf : (mk s q fut used).fut i = some b := hb
        obtain ⟨r1, r2⟩ := h.own.read hb
        cases hl : s.lk i with
        | some l =>
          obtain ⟨m, hmm, -, hm2⟩ := r2 { w := l.w, who := i } l.popped (by simp [ln, hl])
          have hq : (mk s q fut used).q.mem b = some m := hmm
          cases hpp : l.popped with
          | true =>
            refine ⟨(by intro he; simp only [Arbiter.step, hp, if_neg hc, hl, hpp, if_true] at he; cases he), ?_⟩
            intro s' e he _
            simp only [Arbiter.step, hp, if_neg hc, hl, hpp, if_true] at he
            cases he
            exact ⟨q, fut, used, by simp only [step, hm, hp, if_neg hc', hf, hq, hm2, hpp, if_true]; rfl, h.congr rfl rfl (live_set (by simp [hp, live]))⟩
          | false =>
            refine ⟨(by intro he; simp only [Arbiter.step, hp, if_neg hc, hl, hpp, Bool.false_eq_true, if_false] at he; cases he), ?_⟩
            intro s' e he _
            simp only [Arbiter.step, hp, if_neg hc, hl, hpp, Bool.false_eq_true, if_false] at he
            cases he
            exact ⟨q, fut, used, by simp only [step, hm, hp, if_neg hc', hf, hq, hm2, hpp, Bool.false_eq_true, if_false], h⟩
        | none =>
          have hq : (mk s q fut used).q.mem b = none := r1 (by simp [ln, hl])
          have hni : i ∉ s.wq := fun hi => hmem i hi hl
          obtain ⟨q', hq', ho⟩ := h.own.push hb hni { w := w, who := i }
          have hq1 : ((mk s q fut used).q.newLink b { w := w, who := i }).push b = some q' := hq'
          refine ⟨(by intro he; simp only [Arbiter.step, hp, if_neg hc, hl] at he; cases he), ?_⟩
          intro s' e he _
          simp only [Arbiter.step, hp, if_neg hc, hl] at he
          cases he
          refine ⟨q', fut, used, by simp only [step, hm, hp, if_neg hc', hf, hq, hq1]; simp only [mk], ?_, h.used, h.live⟩
          simp only [ln_set, Option.map_some]
          exact ho
    | _ => exact ⟨(by intro _; simp only [step, hm, hp]), (by intro s' e he; simp only [Arbiter.step, hp] at he; cases he)⟩
  | fin i =>
    cases hp : s.pc i with
    | got =>
      refine ⟨(by intro he; simp only [Arbiter.step, hp] at he; cases he), ?_⟩
      intro s' e he _
      simp only [Arbiter.step, hp] at he
      cases he
      obtain ⟨q', fut', used', h1, h2⟩ := dropper_sim (i := i) (p' := .token) h hI.nodup hmem (by simp [hp, live]) rfl
      exact ⟨q', fut', used', by simp only [step, hm, hp]; rw [← h1], h2⟩
    | _ => exact ⟨(by intro _; simp only [step, hm, hp]), (by intro s' e he; simp only [Arbiter.step, hp] at he; cases he)⟩
  | cancel i =>
    cases hp : s.pc i with
    | fut =>
      refine ⟨(by intro he; simp only [Arbiter.step, hp] at he; cases he), ?_⟩
      intro s' e he _
      simp only [Arbiter.step, hp] at he
      cases he
      obtain ⟨q', fut', used', h1, h2⟩ := dropper_sim (i := i) (p' := .none) h hI.nodup hmem (by simp [hp, live]) rfl
      exact ⟨q', fut', used', by simp only [step, hm, hp]; rw [← h1], h2⟩
    | _ => exact ⟨(by intro _; simp only [step, hm, hp]), (by intro s' e he; simp only [Arbiter.step, hp] at he; cases he)⟩
  | tryAccess i =>
    cases hp : s.pc i with
    | none =>
      by_cases hc : s.wq = [] ∧ s.taken = false
      · refine ⟨(by intro he; simp only [Arbiter.step, hp, if_pos hc] at he; cases he), ?_⟩
        intro s' e he _
        simp only [Arbiter.step, hp, if_pos hc] at he
        cases he
        exact ⟨q, fut, used, by simp only [step, hm, hp, if_pos (hemp.2 hc)]; rfl, h.congr rfl rfl (live_set (by simp [hp, live]))⟩
      · have hc' := fun hh => hc (hemp.1 hh)
        refine ⟨(by intro he; simp only [Arbiter.step, hp, if_neg hc] at he; cases he), ?_⟩
        intro s' e he _
        simp only [Arbiter.step, hp, if_neg hc] at he
        cases he
        exact ⟨q, fut, used, by simp only [step, hm, hp, if_neg hc'], h⟩
    | _ => exact ⟨(by intro _; simp only [step, hm, hp]), (by intro s' e he; simp only [Arbiter.step, hp] at he; cases he)⟩
  | dropTok i =>
    cases hp : s.pc i with
    | token =>
      cases hw : s.wq with
      | nil =>
        have hc : (mk s q fut used).q.isEmpty = true := by show q.isEmpty = true; rw [h.own.isEmpty]; simp [hw]
        refine ⟨(by intro he; simp only [Arbiter.step, hp, hw] at he; cases he), ?_⟩
        intro s' e he _
        simp only [Arbiter.step, hp, hw] at he
        cases he
        exact ⟨q, fut, used, by simp only [step, hm, hp, if_pos hc]; rfl, h.congr (by simp [hw]) rfl (live_set (by simp [hp, live]))⟩
      | cons j wq =>
        have hc : ¬ (mk s q fut used).q.isEmpty = true := by show ¬ q.isEmpty = true; rw [h.own.isEmpty]; simp [hw]
        obtain ⟨-, l, hl, -⟩ := (hI.mem j).1 (by simp [hw])
        have ho := h.own
        rw [hw] at ho
        obtain ⟨q', v, hv, hpop, ho'⟩ := ho.pop
        simp only [ln, hl, Option.map_some, Option.some.injEq, Prod.mk.injEq] at hv
        obtain ⟨rfl, -⟩ := hv
        have hpop' : (mk s q fut used).q.pop = _ := hpop
        refine ⟨(by intro he; simp only [Arbiter.step, hp, hw, hl] at he; cases he), ?_⟩
        intro s' e he _
        simp only [Arbiter.step, hp, hw, hl] at he
        cases he
        refine ⟨q', fut, used, by simp only [step, hm, hp, if_neg hc, hpop']; rfl, ?_, h.used, ?_⟩
        · simp only [ln_set, Option.map_some]; exact ho'
        · intro k; rw [h.live k]; show _ ↔ live (Arbiter.set s.pc i _ k) = true; rw [live_set (s := s) (by simp [hp, live])]
    | _ => exact ⟨(by intro _; simp only [step, hm, hp]), (by intro s' e he; simp only [Arbiter.step, hp] at he; cases he)⟩

/-- Every step of the pointer machine is a step of the list-level machine, with the same event. -/
theorem step_back {x : Nat} {a : Act} {s : Arbiter.St} {q fut used own} {p' : PSt} {e : List Ev} (h : G s q fut used) (hI : Inv s own) (hs : step (mk s q fut used) a x = some (p', e)) :
    ∃ s' q' fut' used', p' = mk s' q' fut' used' ∧ Arbiter.step s a = some (s', e) ∧ G s' q' fut' used' := by
  have hf : ∀ i, a = .access i → used x = false := by
    rintro i rfl
    simp only [step] at hs
    split at hs
    · split at hs
      · assumption
      · cases hs
    · cases hs
  cases ha : Arbiter.step s a with
  | none => rw [(step_sim h hI).1 ha] at hs; cases hs
  | some r =>
    obtain ⟨q', fut', used', h1, h2⟩ := (step_sim (x := x) h hI).2 r.1 r.2 ha hf
    rw [h1] at hs
    cases hs
    exact ⟨_, _, _, _, rfl, rfl, h2⟩

theorem g_init : G Arbiter.init WaitQueue.empty (fun _ => none) (fun _ => false) := by
  refine ⟨?_, by simp, by simp [Arbiter.init, live]⟩
  have : ln Arbiter.init.lk = fun _ => none := by funext k; simp [ln, Arbiter.init]
  rw [this]; exact own_init

theorem reach_step {s s' : Arbiter.St} {tr e : List Ev} {a : Act} (h : Arbiter.Reach s tr) (hs : Arbiter.step s a = some (s', e)) : Arbiter.Reach s' (tr ++ e) := by
  obtain ⟨as, he⟩ := h
  refine ⟨as ++ [a], ?_⟩
  have : ∀ (as : List Act) (s0 : Arbiter.St) (es : List Ev), Arbiter.exec s0 as = some (s, es) → Arbiter.exec s0 (as ++ [a]) = some (s', es ++ e) := by
    intro as
    induction as with
    | nil => intro s0 es h; simp only [Arbiter.exec] at h; cases h; simp [Arbiter.exec, hs]
    | cons b as ih =>
      intro s0 es h
      simp only [Arbiter.exec] at h
      split at h
      · cases h
      · rename_i s1 e1 h1
        split at h
        · cases h
        · rename_i s2 e2 h2
          cases h
          simp [Arbiter.exec, h1, ih _ _ h2]
  exact this as _ _ he

/-- a link that was not popped is in the queue -/
theorem unpopped {s : Arbiter.St} {tr : List Ev} (h : Arbiter.Reach s tr) : ∀ i l, s.lk i = some l → l.popped = false → i ∈ s.wq := by
  obtain ⟨as, he⟩ := h
  refine exec_induct (P := fun s _ => ∀ i l, s.lk i = some l → l.popped = false → i ∈ s.wq) ?_ as Arbiter.init [] s tr (by simp [Arbiter.init]) he
  intro s tr a s' e h hs
  cases tr_of_step hs with
  | access i hp => intro j l hj hp; simp only [set_apply] at hj; grind
  | pollFree i w hp hq ht => exact h
  | pollGrant i w l hp hc hl hpop => exact h
  | pollStay i w l hp hc hl hpop => exact h
  | pollWait i w hp hc hl => intro j l hj hp; simp only [set_apply] at hj; simp only [List.mem_append, List.mem_singleton]; grind
  | fin i hp => intro j l hj hp; simp only [set_apply] at hj; have := h j l; by_cases e : j = i; grind; exact (List.mem_erase_of_ne e).2 (by grind)
  | cancel i hp => intro j l hj hp; simp only [set_apply] at hj; have := h j l; by_cases e : j = i; grind; exact (List.mem_erase_of_ne e).2 (by grind)
  | tryOk i hp hq ht => exact h
  | tryFail i hp hc => exact h
  | dropFree i hp hq => exact h
  | dropHand i k q l hp hq hl => intro j l' hj hp; simp only [set_apply] at hj; have := h j l'; rw [hq] at this; grind

theorem exec_back : ∀ (as : List (Act × Nat)) (s : Arbiter.St) (q fut used) (p' : PSt) (tr e : List Ev), G s q fut used → Arbiter.Reach s tr → exec (mk s q fut used) as = some (p', e) →
    ∃ s' q' fut' used', p' = mk s' q' fut' used' ∧ Arbiter.Reach s' (tr ++ e) ∧ G s' q' fut' used'
  | [], s, q, fut, used, p', tr, e, h, hr, he => by cases he; exact ⟨s, q, fut, used, rfl, by simpa using hr, h⟩
  | a :: as, s, q, fut, used, p', tr, e, h, hr, he => by
    simp only [exec] at he
    split at he
    · cases he
    · rename_i p1 e1 h1
      split at he
      · cases he
      · rename_i p2 e2 h2
        cases he
        obtain ⟨own, hI⟩ := (reach_inv hr).inv
        obtain ⟨s', q', fut', used', rfl, hs, hg⟩ := step_back h hI h1
        obtain ⟨s2, q2, fut2, used2, hp, hr2, hg2⟩ := exec_back as s' q' fut' used' _ (tr ++ e1) e2 hg (reach_step hr hs) h2
        exact ⟨s2, q2, fut2, used2, hp, by simpa using hr2, hg2⟩

theorem reach_back {p : PSt} {tr : List Ev} (h : Reach p tr) : ∃ s q fut used, p = mk s q fut used ∧ Arbiter.Reach s tr ∧ G s q fut used := by
  obtain ⟨as, he⟩ := h
  obtain ⟨s, q, fut, used, h1, h2, h3⟩ := exec_back as Arbiter.init WaitQueue.empty (fun _ => none) (fun _ => false) p [] tr g_init ⟨[], rfl⟩ he
  exact ⟨s, q, fut, used, h1, by simpa using h2, h3⟩

theorem dropper_fut (p : PSt) (i j : Nat) : (dropper p i).fut j = p.fut j ∨ (dropper p i).fut j = none := by
  simp only [dropper]
  repeat' split
  all_goals simp only [fset]
  all_goals (repeat' split) <;> simp

theorem step_fut {x : Nat} {a : Act} {p p' : PSt} {e : List Ev} (h : step p a x = some (p', e)) (j : Nat) :
    p'.fut j = p.fut j ∨ p'.fut j = none ∨ (a = .access j ∧ p'.fut j = some x) := by
  cases a with
  | access i =>
    simp only [step] at h
    split at h
    · split at h
      · cases h
        by_cases e : j = i
        · subst e; right; right; exact ⟨rfl, by simp⟩
        · left; simp [fset_ne _ _ e]
      · cases h
    · cases h
  | fin i =>
    simp only [step] at h
    split at h
    · cases h
      rcases dropper_fut p i j with h | h
      · exact Or.inl h
      · exact Or.inr (Or.inl h)
    · cases h
  | cancel i =>
    simp only [step] at h
    split at h
    · cases h
      rcases dropper_fut p i j with h | h
      · exact Or.inl h
      · exact Or.inr (Or.inl h)
    · cases h
  | _ =>
    simp only [step] at h
    (repeat' split at h) <;> (try cases h) <;> exact Or.inl rfl

theorem exec_fwd : ∀ (as : List Act) (s : Arbiter.St) (q fut used) (s' : Arbiter.St) (tr e : List Ev), G s q fut used → (∀ i a, fut i = some a → a = i) → Arbiter.Reach s tr → Arbiter.exec s as = some (s', e) →
    ∃ bs q' fut' used', exec (mk s q fut used) bs = some (mk s' q' fut' used', e) ∧ bs.map (·.1) = as
  | [], s, q, fut, used, s', tr, e, h, hc, hr, he => by cases he; exact ⟨[], q, fut, used, rfl, rfl⟩
  | a :: as, s, q, fut, used, s', tr, e, h, hc, hr, he => by
    simp only [Arbiter.exec] at he
    split at he
    · cases he
    · rename_i p1 e1 h1
      split at he
      · cases he
      · rename_i p2 e2 h2
        cases he
        obtain ⟨own, hI⟩ := (reach_inv hr).inv
        have hx : ∃ x, (∀ i, a = .access i → x = i ∧ used x = false) := by
          cases a with
          | access i =>
            refine ⟨i, fun i' hh => ?_⟩
            cases hh
            refine ⟨rfl, ?_⟩
            cases hu : used i with
            | false => rfl
            | true =>
              obtain ⟨k, hk⟩ := (h.used i).1 hu
              have := hc k i hk; subst this
              have hp : s.pc i = .none := by
                simp only [Arbiter.step] at h1
                split at h1
                · assumption
                · cases h1
              have := (h.live i).1 (by simp [hk])
              simp [hp, live] at this
          | _ => exact ⟨0, by intro i hh; cases hh⟩
        obtain ⟨x, hx⟩ := hx
        obtain ⟨q', fut', used', hs, hg⟩ := (step_sim (x := x) h hI).2 _ _ h1 fun i hh => (hx i hh).2
        have hc' : ∀ i a, fut' i = some a → a = i := by
          intro i b hb
          rcases step_fut hs i with h3 | h3 | ⟨h3, h4⟩
          · exact hc i b (by rw [← hb]; exact h3.symm)
          · have : fut' i = none := h3; rw [hb] at this; cases this
          · have : fut' i = some x := h4
            rw [hb] at this
            have := (hx i h3).1
            grind
        obtain ⟨bs, q2, fut2, used2, hb, hm⟩ := exec_fwd as p1 q' fut' used' _ (tr ++ e1) e2 hg hc' (reach_step hr h1) h2
        exact ⟨(a, x) :: bs, q2, fut2, used2, by simp [exec, hs, hb], by simp [hm]⟩

/-! ## Theorems -/

/-- **C80** No access to memory that is not a live link, whatever addresses the futures have and however the memory of gone futures is reused. -/
theorem C80_arbiter_no_fault {p : PSt} {tr : List Ev} (h : Reach p tr) : p.bad = false := by
  obtain ⟨s, q, fut, used, rfl, -, -⟩ := reach_back h
  rfl

/-- **C80** Every history of the arbiter on the intrusive queue is a history of the list-level arbiter (`Verif.Arbiter`): C15–C17 hold of it. -/
theorem C80_arbiter_refines {p : PSt} {tr : List Ev} (h : Reach p tr) : ∃ s, Arbiter.Reach s tr ∧ p.taken = s.taken ∧ p.pc = s.pc := by
  obtain ⟨s, q, fut, used, rfl, hr, -⟩ := reach_back h
  exact ⟨s, hr, rfl, rfl⟩

/-- **C80** And conversely: the intrusive queue never blocks a history. -/
theorem C80_arbiter_complete {s : Arbiter.St} {tr : List Ev} (h : Arbiter.Reach s tr) : ∃ p, Reach p tr ∧ p.taken = s.taken ∧ p.pc = s.pc := by
  obtain ⟨as, he⟩ := h
  obtain ⟨bs, q, fut, used, hb, -⟩ := exec_fwd as Arbiter.init WaitQueue.empty (fun _ => none) (fun _ => false) s [] tr g_init (by simp) ⟨[], rfl⟩ he
  exact ⟨_, ⟨bs, hb⟩, rfl, rfl⟩

/-- **C80** The queue is a consistent doubly linked list, its nodes are exactly the not yet popped links of live `access` futures, and there is no link outside the memory of a live `access` future. -/
theorem C80_arbiter_linked {p : PSt} {tr : List Ev} (h : Reach p tr) :
    ∃ as, Linked p.q as ∧
      (∀ a, a ∈ as ↔ ∃ l, p.q.mem a = some l ∧ l.isPopped = false) ∧
      (∀ a l, p.q.mem a = some l → ∃ i, p.fut i = some a ∧ (p.pc i = .fut ∨ p.pc i = .got) ∧ l.val.who = i) ∧
      (∀ i j a, p.fut i = some a → p.fut j = some a → i = j) := by
  obtain ⟨s, q, fut, used, rfl, hr, hg⟩ := reach_back h
  obtain ⟨as, hm, hl⟩ := hg.own.linked
  have hlink : ∀ a l, q.mem a = some l → ∃ i, fut i = some a ∧ ln s.lk i = some (l.val, l.isPopped) := by
    intro a l hal
    by_cases hx : ∃ i, fut i = some a
    · obtain ⟨i, hi⟩ := hx
      refine ⟨i, hi, ?_⟩
      rw [← hg.own.mem i a hi, hal]; rfl
    · have := hg.own.rest a (by simpa using hx)
      rw [hal] at this; cases this
  refine ⟨as, hl, ?_, ?_, hg.own.inj⟩
  · intro a
    constructor
    · intro ha
      obtain ⟨k, hk⟩ := List.mem_iff_getElem?.1 ha
      obtain ⟨l, h1, h2, -⟩ := hl.2.2.2 k a hk
      exact ⟨l, h1, h2⟩
    · rintro ⟨l, h1, h2⟩
      obtain ⟨i, hi, hln⟩ := hlink a l h1
      obtain ⟨m, hm1, hm2⟩ := Option.map_eq_some_iff.1 hln
      have hmp : m.popped = false := by simp at hm2; rw [hm2.2, h2]
      exact (mem_iff hg.own.inj hm hi).2 (unpopped hr i m hm1 hmp)
  · intro a l hal
    obtain ⟨i, hi, hln⟩ := hlink a l hal
    obtain ⟨m, hm1, hm2⟩ := Option.map_eq_some_iff.1 hln
    have hpc : live (s.pc i) = true := (hg.live i).1 (by simp [hi])
    simp only [Prod.mk.injEq] at hm2
    refine ⟨i, hi, ?_, by rw [← hm2.1]⟩
    show s.pc i = _ ∨ s.pc i = _
    cases hp : s.pc i <;> simp [hp, live] at hpc <;> simp

/-! Concrete, non-trivial case: client 0 has the arbiter; the `access` of client 1 at address 50 waits and is dropped; its memory is reused by the `access` of client 2, which waits and is handed the arbiter. -/
def demo : List (Act × Nat) :=
  [(.tryAccess 0, 0), (.access 1, 50), (.poll 1 11, 0), (.access 3, 51), (.poll 3 13, 0), (.cancel 1, 0), (.access 2, 50), (.poll 2 12, 0), (.cancel 3, 0), (.dropTok 0, 0), (.poll 2 12, 0)]

example : (exec init demo).map (fun r => (r.1.bad, r.1.pc 2, r.1.fut 2, r.1.q.mem 50 |>.map (fun l => (l.val.who, l.isPopped)), r.2)) =
    some (false, .got, some 50, some (2, true), [.acquired 0, .waiting 1, .waiting 3, .cancelled 1, .waiting 2, .cancelled 3, .released 0, .handed 2 12, .acquired 2]) := by rfl

/-- the address of a live future cannot be used by another one -/
example : (exec init (demo ++ [(.access 1, 50)])).isNone = true := by rfl
example : (exec init (demo ++ [(.fin 2, 0), (.access 1, 50)])).isSome = true := by rfl

end Verif.Intrusive.Arb
