import Verif.Intrusive.Channel

/-! # C80 (channel): waiting `send` futures are never accessed after they are gone -/

namespace Verif.Intrusive.Chan

open Verif.WaitQueue Verif.Channel

variable {T : Type}

/-- the pointer machine in the state that corresponds to `s` -/
def mk (s : Channel.St T) (q : WQ WData) (fut : Nat → Option Nat) (cell : Nat → Option (Option Nat)) : PSt T :=
  { free := s.free, ready := s.ready, slots := s.slots, q := q, rcvDropped := s.rcvDropped, num := s.num, rwk := s.rwk, snd := s.snd, fut := fut, cell := cell, rx := s.rx, bad := s.bad }

def live (p : Pc T) : Bool := p.inSend || p.isDrop1

def ln (fut : Nat → Option Nat) (lk : Nat → Option Lk) (i : Nat) : Option (WData × Bool) :=
  (lk i).map fun l => ({ w := l.w, slot := (fut i).getD 0, who := i }, l.popped)

structure G (s : Channel.St T) (q : WQ WData) (fut : Nat → Option Nat) (cell : Nat → Option (Option Nat)) : Prop where
  own : Own q fut s.wq (ln fut s.lk)
  cells : ∀ i a, fut i = some a → cell a = some (s.sl i)
  nocell : ∀ a, (∀ i, fut i ≠ some a) → cell a = none
  live : ∀ i, fut i ≠ none ↔ live (s.snd i) = true

theorem G.congr {s s' : Channel.St T} {q fut cell} (h : G s q fut cell) (h1 : s'.wq = s.wq) (h2 : s'.lk = s.lk) (h3 : s'.sl = s.sl) (h4 : ∀ i, Chan.live (s'.snd i) = Chan.live (s.snd i)) : G s' q fut cell := by
  obtain ⟨a, b, c, d⟩ := h
  exact ⟨by rw [h1, h2]; exact a, by rw [h3]; exact b, c, by intro i; rw [h4]; exact d i⟩

theorem live_set {s : Channel.St T} {i : Nat} {p : Pc T} (h : live p = live (s.snd i)) : ∀ j, live (Channel.set s.snd i p j) = live (s.snd j) := by
  intro j; by_cases e : j = i
  · subst e; simpa using h
  · rw [set_ne _ _ e]

theorem ret_sim {n x : Nat} {s : Channel.St T} {q fut cell} (h : G s q fut cell) (hI : ∀ i, i ∈ s.wq ↔ ∃ l, s.lk i = some l ∧ l.popped = false) :
    ∃ q' cell', returnFreeSlot n (mk s q fut cell) x = (mk (Channel.returnFreeSlot n s x).1 q' fut cell', (Channel.returnFreeSlot n s x).2) ∧ G (Channel.returnFreeSlot n s x).1 q' fut cell' := by
  cases hw : s.wq with
  | nil =>
    have ho := h.own
    rw [hw] at ho
    refine ⟨q, cell, ?_, ?_⟩
    · simp only [returnFreeSlot, Channel.returnFreeSlot, mk, ho.popNil, hw]; rfl
    · simp only [Channel.returnFreeSlot, hw]
      exact h.congr (by simp [hw]) rfl rfl (fun _ => rfl)
  | cons j wq =>
    obtain ⟨l, hl, hp⟩ := (hI j).1 (by simp [hw])
    have ho := h.own
    rw [hw] at ho
    obtain ⟨a, ha⟩ := ho.addr (List.mem_cons_self ..)
    obtain ⟨q', v, hv, hpop, ho'⟩ := ho.pop
    simp only [ln, hl, ha, Option.map_some, Option.getD_some, Option.some.injEq, Prod.mk.injEq] at hv
    obtain ⟨rfl, -⟩ := hv
    have hc := h.cells j a ha
    refine ⟨q', fset cell a (some (some x)), ?_, ?_⟩
    · simp only [returnFreeSlot, Channel.returnFreeSlot, mk, hpop, hw, hl, hc]
    · simp only [Channel.returnFreeSlot, hw, hl]
      refine ⟨?_, ?_, ?_, h.live⟩
      · have : ln fut (Channel.set s.lk j (some { l with popped := true })) = fset (ln fut s.lk) j (some ({ w := l.w, slot := a, who := j }, true)) := by
          funext k
          by_cases e : k = j
          · subst e; simp [ln, ha]
          · simp [ln, set_ne _ _ e, fset_ne _ _ e]
        simp only [this]; exact ho'
      · intro k b hk
        by_cases e : k = j
        · subst e
          have : b = a := by rw [ha] at hk; exact (by simpa using hk.symm)
          subst this; simp
        · have : b ≠ a := by rintro rfl; exact e (h.own.inj _ _ _ hk ha)
          simp [fset_ne _ _ this, set_ne _ _ e, h.cells k b hk]
      · intro b hb
        have : b ≠ a := by rintro rfl; exact hb j ha
        simp [fset_ne _ _ this, h.nocell b hb]

theorem ln_none {fut : Nat → Option Nat} {lk : Nat → Option Lk} {i : Nat} : ln fut lk i = none ↔ lk i = none := by simp [ln]

theorem ln_set_none (fut : Nat → Option Nat) (lk : Nat → Option Lk) (i : Nat) : ln fut (Channel.set lk i none) = fset (ln fut lk) i none := by
  funext k
  by_cases e : k = i
  · subst e; simp [ln]
  · simp [ln, set_ne _ _ e, fset_ne _ _ e]

theorem poll_sim {s : Channel.St T} {i w : Nat} {v : T} {q fut cell} (h : G s q fut cell) (hI : InvQ s) (hs : s.snd i = .snd v) :
    ∃ q' cell', pollSend (mk s q fut cell) i v w = mk (Channel.pollSend s i v w) q' fut cell' ∧ G (Channel.pollSend s i v w) q' fut cell' := by
  cases hd : s.rcvDropped with
  | true =>
    refine ⟨q, cell, by simp only [pollSend, Channel.pollSend, mk, hd, if_true]; rfl, ?_⟩
    simp only [Channel.pollSend, hd, if_true]
    exact h.congr rfl rfl rfl (live_set (by simp [hs, live, Pc.inSend]))
  | false =>
    obtain ⟨a, ha⟩ : ∃ a, fut i = some a := by
      have := (h.live i).2 (by simp [hs, live, Pc.inSend])
      exact Option.ne_none_iff_exists'.1 this
    obtain ⟨r1, r2⟩ := h.own.read ha
    have hc := h.cells i a ha
    cases hl : s.lk i with
    | some l =>
      obtain ⟨m, hm, hm1, hm2⟩ := r2 { w := l.w, slot := a, who := i } l.popped (by simp [ln, hl, ha])
      cases hp : l.popped with
      | false =>
        refine ⟨q, cell, ?_, ?_⟩
        · simp [pollSend, Channel.pollSend, mk, hd, ha, hm, hl, hm2, hp]
        · simpa [Channel.pollSend, hd, hl, hp] using h
      | true =>
        have hni : i ∉ s.wq := by
          intro hi
          obtain ⟨l', h1, h2⟩ := (hI.mem i).1 hi
          rw [hl] at h1; cases h1; rw [hp] at h2; cases h2
        cases hx : s.sl i with
        | some x =>
          refine ⟨q.free a, fset cell a (some none), ?_, ?_⟩
          · simp only [pollSend, Channel.pollSend, mk, hd, ha, hm, hl, hm2, hp, hc, hx, if_true, Bool.false_eq_true, if_false]; rfl
          · simp only [Channel.pollSend, hd, hl, hp, hx, if_true, Bool.false_eq_true, if_false]
            refine ⟨?_, ?_, ?_, ?_⟩
            · simp only [ln_set_none]; exact h.own.take ha hni
            · intro k b hk
              by_cases e : k = i
              · subst e
                have : b = a := by rw [ha] at hk; exact (by simpa using hk.symm)
                subst this; simp
              · have : b ≠ a := by rintro rfl; exact e (h.own.inj _ _ _ hk ha)
                simp [fset_ne _ _ this, set_ne _ _ e, h.cells k b hk]
            · intro b hb
              have : b ≠ a := by rintro rfl; exact hb i ha
              simp [fset_ne _ _ this, h.nocell b hb]
            · intro k
              rw [h.live k]
              show _ ↔ live (Channel.set s.snd i _ k) = true
              rw [live_set (s := s) (by simp [hs, live, Pc.inSend])]
        | none =>
          refine ⟨q.free a, cell, ?_, ?_⟩
          · simp only [pollSend, Channel.pollSend, mk, hd, ha, hm, hl, hm2, hp, hc, hx, if_true, Bool.false_eq_true, if_false]; rfl
          · simp only [Channel.pollSend, hd, hl, hp, hx, if_true, Bool.false_eq_true, if_false]
            refine ⟨by simp only [ln_set_none]; exact h.own.take ha hni, h.cells, h.nocell, ?_⟩
            intro k
            rw [h.live k]
            show _ ↔ live (Channel.set s.snd i _ k) = true
            rw [live_set (s := s) (by simp [hs, live, Pc.inSend])]
    | none =>
      have hm := r1 (by simp [ln, hl])
      have hni : i ∉ s.wq := by
        intro hi
        obtain ⟨l', h1, h2⟩ := (hI.mem i).1 hi
        rw [hl] at h1; cases h1
      by_cases hf : s.wq ≠ [] ∨ s.free = []
      · obtain ⟨q', hq', ho⟩ := h.own.push ha hni { w := w, slot := a, who := i }
        have hf' : q.isEmpty = false ∨ s.free = [] := by rw [h.own.isEmpty]; simpa using hf
        refine ⟨q', cell, ?_, ?_⟩
        · simp only [pollSend, Channel.pollSend, mk, hd, ha, hm, hl, if_pos hf, if_pos hf', hq', Bool.false_eq_true, if_false]
        · simp only [Channel.pollSend, hd, hl, if_pos hf, Bool.false_eq_true, if_false]
          refine ⟨?_, h.cells, h.nocell, h.live⟩
          have : ln fut (Channel.set s.lk i (some { w := w, popped := false })) = fset (ln fut s.lk) i (some ({ w := w, slot := a, who := i }, false)) := by
            funext k
            by_cases e : k = i
            · subst e; simp [ln, ha]
            · simp [ln, set_ne _ _ e, fset_ne _ _ e]
          simp only [this]; exact ho
      · have hf' : ¬ (q.isEmpty = false ∨ s.free = []) := by rw [h.own.isEmpty]; simpa using hf
        refine ⟨q, cell, ?_, ?_⟩
        · simp only [pollSend, Channel.pollSend, mk, hd, ha, hm, hl, if_neg hf, if_neg hf', Bool.false_eq_true, if_false]
          cases s.free.getLast? <;> rfl
        · simp only [Channel.pollSend, hd, hl, if_neg hf, Bool.false_eq_true, if_false]
          split
          · exact h.congr rfl rfl rfl (live_set (by simp [hs, live, Pc.inSend]))
          · exact h.congr rfl rfl rfl (fun _ => rfl)

theorem ret_snd (n : Nat) (p : PSt T) (f : Nat → Pc T) (x : Nat) : returnFreeSlot n { p with snd := f } x = ({ (returnFreeSlot n p x).1 with snd := f }, (returnFreeSlot n p x).2) := by
  simp only [returnFreeSlot]
  split <;> try rfl
  split <;> rfl

theorem ret_keep (n : Nat) (p : PSt T) (x : Nat) : (returnFreeSlot n p x).1.snd = p.snd := by
  simp only [returnFreeSlot]
  split <;> try rfl
  split <;> rfl

theorem ret_snd' (n : Nat) (s : Channel.St T) (f : Nat → Pc T) (x : Nat) : Channel.returnFreeSlot n { s with snd := f } x = ({ (Channel.returnFreeSlot n s x).1 with snd := f }, (Channel.returnFreeSlot n s x).2) := by
  simp only [Channel.returnFreeSlot]
  split <;> try rfl
  split <;> rfl

/-- a fresh address: no live future has its variables there -/
def Fresh (p : PSt T) (x : Nat) : Prop := p.cell x = none ∧ p.q.mem x = none

theorem goS_sim {n i : Nat} {s : Channel.St T} {q fut cell} (h : G s q fut cell) (hI : InvQ s) :
    (Channel.goS n s i = none → goS n (mk s q fut cell) i = none) ∧
    ∀ s' e, Channel.goS n s i = some (s', e) → ∃ q' fut' cell', goS n (mk s q fut cell) i = some (mk s' q' fut' cell', e) ∧ G s' q' fut' cell' := by
  have hm : (mk s q fut cell).snd i = s.snd i := rfl
  cases hs : s.snd i with
  | absent => exact ⟨fun _ => by simp only [goS, hm, hs], by intro s' e he; simp only [Channel.goS, hs] at he; cases he⟩
  | idle => exact ⟨fun _ => by simp only [goS, hm, hs], by intro s' e he; simp only [Channel.goS, hs] at he; cases he⟩
  | snd v => exact ⟨fun _ => by simp only [goS, hm, hs], by intro s' e he; simp only [Channel.goS, hs] at he; cases he⟩
  | try0 v =>
    refine ⟨(by intro he; simp only [Channel.goS, hs] at he; split at he <;> cases he), ?_⟩
    intro s' e he
    simp only [Channel.goS, hs] at he
    by_cases hw : s.wq ≠ []
    · have hw' : q.isEmpty = false := by rw [h.own.isEmpty]; simpa using hw
      rw [if_pos hw] at he; cases he
      refine ⟨q, fut, cell, by simp only [goS, hm, hs]; rw [if_pos (show (mk s q fut cell).q.isEmpty = false from hw')]; rfl, h.congr rfl rfl rfl (live_set (by simp [hs, live, Pc.inSend, Pc.isDrop1]))⟩
    · have hw' : ¬ q.isEmpty = false := by rw [h.own.isEmpty]; simpa using hw
      rw [if_neg hw] at he; cases he
      refine ⟨q, fut, cell, by simp only [goS, hm, hs]; rw [if_neg (show ¬ (mk s q fut cell).q.isEmpty = false from hw')]; rfl, h.congr rfl rfl rfl (live_set (by simp [hs, live, Pc.inSend, Pc.isDrop1]))⟩
  | try1 v =>
    refine ⟨(by intro he; simp only [Channel.goS, hs] at he; split at he <;> cases he), ?_⟩
    intro s' e he
    simp only [Channel.goS, hs] at he
    have hd : (mk s q fut cell).rcvDropped = s.rcvDropped := rfl
    split at he <;> rename_i hd' <;> cases he <;> refine ⟨q, fut, cell, by simp only [goS, hm, hs, hd, hd', if_true, if_false, Bool.false_eq_true]; rfl, h.congr rfl rfl rfl (live_set (by simp [hs, live, Pc.inSend, Pc.isDrop1]))⟩
  | try2 v =>
    refine ⟨(by intro he; simp only [Channel.goS, hs] at he; split at he <;> cases he), ?_⟩
    intro s' e he
    simp only [Channel.goS, hs] at he
    have hd : (mk s q fut cell).free = s.free := rfl
    split at he <;> rename_i hd' <;> cases he <;> refine ⟨q, fut, cell, by simp only [goS, hm, hs, hd, hd']; rfl, h.congr rfl rfl rfl (live_set (by simp [hs, live, Pc.inSend, Pc.isDrop1]))⟩
  | drop0 v k =>
    refine ⟨(by intro he; simp only [Channel.goS, hs] at he; cases he), ?_⟩
    intro s' e he
    simp only [Channel.goS, hs] at he
    cases he
    obtain ⟨a, ha⟩ : ∃ a, fut i = some a := by
      have := (h.live i).2 (by simp [hs, live, Pc.inSend])
      exact Option.ne_none_iff_exists'.1 this
    obtain ⟨r1, r2⟩ := h.own.read ha
    have hf : (mk s q fut cell).fut i = some a := ha
    have hlv : ∀ k', fut k' ≠ none ↔ live (Channel.set s.snd i (.drop1 v k) k') = true := by
      intro k'; rw [h.live k', live_set (s := s) (by simp [hs, live, Pc.inSend, Pc.isDrop1])]
    cases hl : s.lk i with
    | none =>
      have hq : (mk s q fut cell).q.mem a = none := r1 (by simp [ln, hl])
      have hni : i ∉ s.wq := by
        intro hi
        obtain ⟨l', h1, h2⟩ := (hI.mem i).1 hi
        rw [hl] at h1; cases h1
      refine ⟨q, fut, cell, by simp only [goS, hm, hs, hf, hq]; rfl, ?_, h.cells, h.nocell, hlv⟩
      have e1 : Channel.set s.lk i none = s.lk := by funext k; by_cases e : k = i; subst e; simp [hl]; simp [set_ne _ _ e]
      simp only [e1, List.erase_of_not_mem hni]
      exact h.own
    | some l =>
      obtain ⟨m, hmm, -, -⟩ := r2 { w := l.w, slot := a, who := i } l.popped (by simp [ln, hl, ha])
      have hq : (mk s q fut cell).q.mem a = some m := hmm
      obtain ⟨q', hq', ho⟩ := h.own.remove (i := i) (a := a) (x := ({ w := l.w, slot := a, who := i }, l.popped)) ha (by simp [ln, hl, ha]) hI.nodup
      have hq1 : (mk s q fut cell).q.remove a = some q' := hq'
      have ho2 := ho.take ha (by rw [hI.nodup.mem_erase_iff]; simp)
      refine ⟨q'.free a, fut, cell, by simp only [goS, hm, hs, hf, hq, hq1]; rfl, ?_, h.cells, h.nocell, hlv⟩
      simp only [ln_set_none]
      have e1 : fset (fset (ln fut s.lk) i (some (({ w := l.w, slot := a, who := i } : WData), true))) i none = fset (ln fut s.lk) i none := by funext k; simp only [fset]; split <;> rfl
      rw [← e1]
      exact ho2
  | drop1 v k =>
    have hlk : s.lk i = none := by
      cases hl : s.lk i with
      | none => rfl
      | some l => have := hI.lkpc i l hl; rw [hs] at this; cases this
    have hni : i ∉ s.wq := by
      intro hi
      obtain ⟨l', h1, h2⟩ := (hI.mem i).1 hi
      rw [hlk] at h1; cases h1
    obtain ⟨a, ha⟩ : ∃ a, fut i = some a := by
      have := (h.live i).2 (by simp [hs, live, Pc.inSend, Pc.isDrop1])
      exact Option.ne_none_iff_exists'.1 this
    have hf : (mk s q fut cell).fut i = some a := ha
    have hc : (mk s q fut cell).cell a = some (s.sl i) := h.cells i a ha
    -- the state after the variables of `i` are dead
    have hlnE : ln (fset fut i none) s.lk = ln fut s.lk := by
      funext k
      by_cases e : k = i
      · subst e; simp [ln, hlk]
      · simp [ln, fset_ne _ _ e]
    have hown : Own q (fset fut i none) s.wq (ln (fset fut i none) s.lk) := by rw [hlnE]; exact h.own.release (by simp [ln, hlk]) hni
    have hcells : ∀ k b, fset fut i none k = some b → fset cell a none b = some (Channel.set s.sl i none k) := by
      intro k b hk
      by_cases e : k = i
      · subst e; simp at hk
      · rw [fset_ne _ _ e] at hk
        have : b ≠ a := by rintro rfl; exact e (h.own.inj _ _ _ hk ha)
        simp [fset_ne _ _ this, set_ne _ _ e, h.cells k b hk]
    have hnoc : ∀ b, (∀ k, fset fut i none k ≠ some b) → fset cell a none b = none := by
      intro b hb
      by_cases e : b = a
      · subst e; simp
      · rw [fset_ne _ _ e]
        refine h.nocell b fun k hk => ?_
        by_cases e' : k = i
        · subst e'; rw [ha] at hk; exact e (by simpa using hk.symm)
        · exact hb k (by rw [fset_ne _ _ e']; exact hk)
    have hlv : ∀ p : Pc T, live p = false → ∀ k, fset fut i none k ≠ none ↔ live (Channel.set s.snd i p k) = true := by
      intro p hp k
      by_cases e : k = i
      · subst e; simp [hp]
      · rw [fset_ne _ _ e, set_ne _ _ e]; exact h.live k
    refine ⟨?_, ?_⟩
    · intro he
      simp only [Channel.goS, hs] at he
      split at he <;> cases he
    · intro s' e he
      simp only [Channel.goS, hs] at he
      cases hx : s.sl i with
      | none =>
        rw [hx] at hc he
        simp only at he
        have hg : ∀ p : Pc T, live p = false → G ({ s with sl := Channel.set s.sl i none, snd := Channel.set s.snd i p } : Channel.St T) q (fset fut i none) (fset cell a none) :=
          fun p hp => ⟨hown, hcells, hnoc, hlv p hp⟩
        cases k <;> cases he
        · exact ⟨q, fset fut i none, fset cell a none, by simp only [goS, hm, hs, hf, hc]; rfl, hg _ rfl⟩
        · exact ⟨q, fset fut i none, fset cell a none, by simp only [goS, hm, hs, hf, hc]; rfl, hg _ rfl⟩
        · exact ⟨q, fset fut i none, fset cell a none, by simp only [goS, hm, hs, hf, hc]; rfl, hg _ rfl⟩
      | some x =>
        rw [hx] at hc he
        simp only at he
        have hd1 : ∀ p : Pc T, live p = false → ∃ q' cell',
            ({ (returnFreeSlot n { (mk s q fut cell) with cell := fset cell a none, fut := fset fut i none } x).1 with snd := Channel.set s.snd i p } : PSt T) =
              mk ({ (Channel.returnFreeSlot n { s with sl := Channel.set s.sl i none } x).1 with snd := Channel.set s.snd i p } : Channel.St T) q' (fset fut i none) cell' ∧
            (returnFreeSlot n { (mk s q fut cell) with cell := fset cell a none, fut := fset fut i none } x).2 = (Channel.returnFreeSlot n { s with sl := Channel.set s.sl i none } x).2 ∧
            G ({ (Channel.returnFreeSlot n { s with sl := Channel.set s.sl i none } x).1 with snd := Channel.set s.snd i p } : Channel.St T) q' (fset fut i none) cell' := by
          intro p hp
          obtain ⟨q', cell', h1, h2⟩ := ret_sim (n := n) (x := x) (s := { s with sl := Channel.set s.sl i none, snd := Channel.set s.snd i p }) (q := q) (fut := fset fut i none) (cell := fset cell a none)
            ⟨hown, hcells, hnoc, hlv p hp⟩ hI.mem
          have h3 := ret_snd n { (mk s q fut cell) with cell := fset cell a none, fut := fset fut i none } (Channel.set s.snd i p) x
          have h4 : Channel.returnFreeSlot n { s with sl := Channel.set s.sl i none, snd := Channel.set s.snd i p } x = _ := ret_snd' n { s with sl := Channel.set s.sl i none } (Channel.set s.snd i p) x
          have h5 := h3.symm.trans h1
          rw [h4] at h5 h2
          exact ⟨q', cell', congrArg Prod.fst h5, congrArg Prod.snd h5, h2⟩
        cases k <;> cases he
        · obtain ⟨q', cell', e1, e2, e3⟩ := hd1 (.hold v _) rfl
          exact ⟨q', fset fut i none, cell', by simp only [goS, hm, hs, hf, hc]; exact congrArg some (Prod.ext e1 e2), e3⟩
        · obtain ⟨q', cell', e1, e2, e3⟩ := hd1 .idle rfl
          exact ⟨q', fset fut i none, cell', by simp only [goS, hm, hs, hf, hc]; exact congrArg some (Prod.ext e1 (congrArg (· ++ _) e2)), e3⟩
        · obtain ⟨q', cell', e1, e2, e3⟩ := hd1 .idle rfl
          exact ⟨q', fset fut i none, cell', by simp only [goS, hm, hs, hf, hc]; exact congrArg some (Prod.ext e1 (congrArg (· ++ _) e2)), e3⟩
  | hold v x =>
    refine ⟨(by intro he; simp only [Channel.goS, hs] at he; cases he), ?_⟩
    intro s' e he
    simp only [Channel.goS, hs] at he
    cases he
    exact ⟨q, fut, cell, by simp only [goS, hm, hs]; rfl, h.congr rfl rfl rfl (live_set (by simp [hs, live, Pc.inSend, Pc.isDrop1]))⟩
  | written v x =>
    refine ⟨(by intro he; simp only [Channel.goS, hs] at he; cases he), ?_⟩
    intro s' e he
    simp only [Channel.goS, hs] at he
    cases he
    exact ⟨q, fut, cell, by simp only [goS, hm, hs]; rfl, h.congr rfl rfl rfl (live_set (by simp [hs, live, Pc.inSend, Pc.isDrop1]))⟩
  | pushed =>
    refine ⟨(by intro he; simp only [Channel.goS, hs] at he; cases he), ?_⟩
    intro s' e he
    simp only [Channel.goS, hs, Channel.wakeR] at he
    have hr : (mk s q fut cell).rwk = s.rwk := rfl
    cases hw : s.rwk <;> rw [hw] at he hr <;> cases he <;>
    exact ⟨q, fut, cell, by simp only [goS, hm, hs, wakeR, hr]; simp only [mk, hw]; rfl, h.congr rfl rfl rfl (live_set (by simp [hs, live, Pc.inSend, Pc.isDrop1]))⟩
  | dropW =>
    refine ⟨(by intro he; simp only [Channel.goS, hs] at he; cases he), ?_⟩
    intro s' e he
    simp only [Channel.goS, hs, Channel.wakeR] at he
    have hr : (mk s q fut cell).rwk = s.rwk := rfl
    cases hw : s.rwk <;> rw [hw] at he hr <;> cases he <;>
    exact ⟨q, fut, cell, by simp only [goS, hm, hs, wakeR, hr]; simp only [mk, hw]; rfl, h.congr rfl rfl rfl (live_set (by simp [hs, live, Pc.inSend, Pc.isDrop1]))⟩

theorem ret_rx (n : Nat) (p : PSt T) (r : Rx T) (x : Nat) : returnFreeSlot n { p with rx := r } x = ({ (returnFreeSlot n p x).1 with rx := r }, (returnFreeSlot n p x).2) := by
  simp only [returnFreeSlot]
  split <;> try rfl
  split <;> rfl

theorem goR_sim {n : Nat} {s : Channel.St T} {q fut cell} (h : G s q fut cell) (hI : InvQ s) :
    (Channel.goR n s = none → goR n (mk s q fut cell) = none) ∧
    ∀ s' e, Channel.goR n s = some (s', e) → ∃ q' fut' cell', goR n (mk s q fut cell) = some (mk s' q' fut' cell', e) ∧ G s' q' fut' cell' := by
  have hm : (mk s q fut cell).rx = s.rx := rfl
  cases hs : s.rx with
  | idle => exact ⟨fun _ => by simp only [goR, hm, hs], by intro s' e he; simp only [Channel.goR, hs] at he; cases he⟩
  | pend w => exact ⟨fun _ => by simp only [goR, hm, hs], by intro s' e he; simp only [Channel.goR, hs] at he; cases he⟩
  | gone => exact ⟨fun _ => by simp only [goR, hm, hs], by intro s' e he; simp only [Channel.goR, hs] at he; cases he⟩
  | poll0 w =>
    refine ⟨(by intro he; simp only [Channel.goR, hs] at he; cases he), ?_⟩
    intro s' e he
    simp only [Channel.goR, hs, Channel.register] at he
    have hr : (mk s q fut cell).rwk = s.rwk := rfl
    cases hw : s.rwk with
    | none =>
      rw [hw] at he hr; cases he
      exact ⟨q, fut, cell, by simp only [goR, hm, hs, register, hr]; rfl, h.congr rfl rfl rfl (fun _ => rfl)⟩
    | some w2 =>
      rw [hw] at he hr
      by_cases hww : w2 = w
      · simp only [hww, if_true] at he; cases he
        exact ⟨q, fut, cell, by simp only [goR, hm, hs, register, hr, hww, if_true]; simp only [mk, hw, hww], h.congr rfl rfl rfl (fun _ => rfl)⟩
      · simp only [hww, if_false] at he; cases he
        exact ⟨q, fut, cell, by simp only [goR, hm, hs, register, hr, hww, if_false]; rfl, h.congr rfl rfl rfl (fun _ => rfl)⟩
  | tr0 m =>
    refine ⟨(by intro he; simp only [Channel.goR, hs] at he; split at he <;> cases he), ?_⟩
    intro s' e he
    simp only [Channel.goR, hs] at he
    have hr : (mk s q fut cell).ready = s.ready := rfl
    split at he <;> rename_i hd <;> cases he <;> exact ⟨q, fut, cell, by simp only [goR, hm, hs, hr, hd]; rfl, h.congr rfl rfl rfl (fun _ => rfl)⟩
  | got m x =>
    refine ⟨(by intro he; simp only [Channel.goR, hs] at he; split at he <;> cases he), ?_⟩
    intro s' e he
    simp only [Channel.goR, hs] at he
    have hr : (mk s q fut cell).slots = s.slots := rfl
    split at he <;> rename_i hd <;> cases he <;> exact ⟨q, fut, cell, by simp only [goR, hm, hs, hr, hd]; simp only [mk, hs]; try rfl, h.congr rfl rfl rfl (fun _ => rfl)⟩
  | rd m x v =>
    refine ⟨(by intro he; simp only [Channel.goR, hs] at he; cases he), ?_⟩
    intro s' e he
    simp only [Channel.goR, hs] at he
    cases he
    obtain ⟨q', cell', h1, h2⟩ := ret_sim (n := n) (x := x) h hI.mem
    refine ⟨q', fut, cell', ?_, h2.congr rfl rfl rfl (fun _ => rfl)⟩
    simp only [goR, hm, hs, h1]; rfl
  | empty m =>
    refine ⟨(by intro he; simp only [Channel.goR, hs] at he; split at he <;> cases he), ?_⟩
    intro s' e he
    simp only [Channel.goR, hs] at he
    have hr : (mk s q fut cell).num = s.num := rfl
    split at he <;> rename_i hd <;> cases he <;> exact ⟨q, fut, cell, by simp only [goR, hm, hs, hr, hd, if_true, if_false]; rfl, h.congr rfl rfl rfl (fun _ => rfl)⟩
  | drop0 =>
    refine ⟨(by intro he; simp only [Channel.goR, hs] at he; cases he), ?_⟩
    intro s' e he
    simp only [Channel.goR, hs] at he
    cases he
    exact ⟨q, fut, cell, by simp only [goR, hm, hs]; rfl, h.congr rfl rfl rfl (fun _ => rfl)⟩
  | drop1 =>
    refine ⟨(by intro he; simp only [Channel.goR, hs] at he; split at he <;> cases he), ?_⟩
    intro s' e he
    simp only [Channel.goR, hs] at he
    have hr : (mk s q fut cell).ready = s.ready := rfl
    split at he <;> rename_i hd <;> cases he <;> exact ⟨q, fut, cell, by simp only [goR, hm, hs, hr, hd]; rfl, h.congr rfl rfl rfl (fun _ => rfl)⟩
  | dgot x =>
    refine ⟨(by intro he; simp only [Channel.goR, hs] at he; split at he <;> cases he), ?_⟩
    intro s' e he
    simp only [Channel.goR, hs] at he
    have hr : (mk s q fut cell).slots = s.slots := rfl
    split at he <;> rename_i hd <;> cases he <;> exact ⟨q, fut, cell, by simp only [goR, hm, hs, hr, hd]; simp only [mk, hs]; try rfl, h.congr rfl rfl rfl (fun _ => rfl)⟩
  | drop2 =>
    cases hw : s.wq with
    | nil =>
      have ho := h.own
      rw [hw] at ho
      have hp : (mk s q fut cell).q.pop = some (q, none) := ho.popNil
      refine ⟨(by intro he; simp only [Channel.goR, hs, hw] at he; cases he), ?_⟩
      intro s' e he
      simp only [Channel.goR, hs, hw] at he
      cases he
      exact ⟨q, fut, cell, by simp only [goR, hm, hs, hp]; rfl, h.congr (by simp [hw]) rfl rfl (fun _ => rfl)⟩
    | cons j wq =>
      obtain ⟨l, hl, hp⟩ := (hI.mem j).1 (by simp [hw])
      have ho := h.own
      rw [hw] at ho
      obtain ⟨a, ha⟩ := ho.addr (List.mem_cons_self ..)
      obtain ⟨q', v, hv, hpop, ho'⟩ := ho.pop
      simp only [ln, hl, ha, Option.map_some, Option.getD_some, Option.some.injEq, Prod.mk.injEq] at hv
      obtain ⟨rfl, -⟩ := hv
      have hpop' : (mk s q fut cell).q.pop = _ := hpop
      refine ⟨(by intro he; simp only [Channel.goR, hs, hw, hl] at he; cases he), ?_⟩
      intro s' e he
      simp only [Channel.goR, hs, hw, hl] at he
      cases he
      refine ⟨q', fut, cell, by simp only [goR, hm, hs, hpop']; simp only [mk, hs], ?_, h.cells, h.nocell, h.live⟩
      have : ln fut (Channel.set s.lk j (some { l with popped := true })) = fset (ln fut s.lk) j (some ({ w := l.w, slot := a, who := j }, true)) := by
        funext k
        by_cases e : k = j
        · subst e; simp [ln, ha]
        · simp [ln, set_ne _ _ e, fset_ne _ _ e]
      simp only [this]; exact ho'

theorem fresh_iff {s : Channel.St T} {q fut cell} (h : G s q fut cell) (x : Nat) : Fresh (mk s q fut cell) x ↔ ∀ i, fut i ≠ some x := by
  constructor
  · intro hf i hi
    have := h.cells i x hi
    rw [show cell x = none from hf.1] at this; cases this
  · intro hf; exact ⟨h.nocell x hf, h.own.rest x hf⟩

theorem step_sim {n x : Nat} {a : Act T} {s : Channel.St T} {q fut cell} (h : G s q fut cell) (hI : InvQ s) :
    (Channel.step n s a = none → step n (mk s q fut cell) a x = none) ∧
    ∀ s' e, Channel.step n s a = some (s', e) → (∀ i v, a = .startSend i v → Fresh (mk s q fut cell) x) → ∃ q' fut' cell', step n (mk s q fut cell) a x = some (mk s' q' fut' cell', e) ∧ G s' q' fut' cell' := by
  cases a with
  | go i => exact ⟨(goS_sim h hI).1, fun s' e he _ => (goS_sim h hI).2 s' e he⟩
  | goR => exact ⟨(goR_sim h hI).1, fun s' e he _ => (goR_sim h hI).2 s' e he⟩
  | clone i j =>
    have hm : (mk s q fut cell).snd = s.snd := rfl
    constructor
    · intro he
      simp only [Channel.step] at he
      simp only [step, hm]
      split at he
      · cases he
      · rename_i hx; split
        · rename_i h1 h2; exact absurd h2 (hx h1)
        · rfl
    · intro s' e he _
      simp only [Channel.step] at he
      split at he
      · rename_i h1 h2
        cases he
        refine ⟨q, fut, cell, by simp only [step, hm, h1, h2]; rfl, h.congr rfl rfl rfl (live_set (by simp [h2, live, Pc.inSend, Pc.isDrop1]))⟩
      · cases he
  | dropS i =>
    have hm : (mk s q fut cell).snd = s.snd := rfl
    cases hp : s.snd i with
    | idle =>
      refine ⟨(by intro he; simp only [Channel.step, hp] at he; cases he), ?_⟩
      intro s' e he _
      simp only [Channel.step, hp] at he
      cases he
      refine ⟨q, fut, cell, by simp only [step, hm, hp]; rfl, h.congr rfl rfl rfl (live_set ?_)⟩
      split <;> simp [hp, live, Pc.inSend, Pc.isDrop1]
    | _ => refine ⟨(by intro _; simp only [step, hm, hp]), (by intro s' e he; simp only [Channel.step, hp] at he; cases he)⟩
  | startTry i v =>
    have hm : (mk s q fut cell).snd = s.snd := rfl
    cases hp : s.snd i with
    | idle =>
      refine ⟨(by intro he; simp only [Channel.step, hp] at he; cases he), ?_⟩
      intro s' e he _
      simp only [Channel.step, hp] at he
      cases he
      exact ⟨q, fut, cell, by simp only [step, hm, hp]; rfl, h.congr rfl rfl rfl (live_set (by simp [hp, live, Pc.inSend, Pc.isDrop1]))⟩
    | _ => refine ⟨(by intro _; simp only [step, hm, hp]), (by intro s' e he; simp only [Channel.step, hp] at he; cases he)⟩
  | startSend i v =>
    have hm : (mk s q fut cell).snd = s.snd := rfl
    cases hp : s.snd i with
    | idle =>
      refine ⟨(by intro he; simp only [Channel.step, hp] at he; cases he), ?_⟩
      intro s' e he hf
      have hf := hf i v rfl
      simp only [Channel.step, hp] at he
      cases he
      have hfx := (fresh_iff h x).1 hf
      have hn : fut i = none := by
        cases hfi : fut i with
        | none => rfl
        | some a => have := (h.live i).1 (by simp [hfi]); simp [hp, live, Pc.inSend, Pc.isDrop1] at this
      have hlk : s.lk i = none := by
        cases hl : s.lk i with
        | none => rfl
        | some l => have := hI.lkpc i l hl; rw [hp] at this; cases this
      refine ⟨q, fset fut i (some x), fset cell x (some none), ?_, ?_, ?_, ?_, ?_⟩
      · simp only [step, hm, hp]; rw [if_pos (show (mk s q fut cell).cell x = none ∧ (mk s q fut cell).q.mem x = none from hf)]; rfl
      · have e1 : Channel.set s.lk i none = s.lk := by funext k; by_cases e : k = i; subst e; simp [hlk]; simp [set_ne _ _ e]
        have e2 : ln (fset fut i (some x)) s.lk = ln fut s.lk := by
          funext k
          by_cases e : k = i
          · subst e; simp [ln, hlk]
          · simp [ln, fset_ne _ _ e]
        simp only [e1, e2]
        exact h.own.alloc hn hfx
      · intro k b hk
        by_cases e : k = i
        · subst e; simp at hk; subst hk; simp
        · rw [fset_ne _ _ e] at hk
          have : b ≠ x := by rintro rfl; exact hfx k hk
          simp [fset_ne _ _ this, set_ne _ _ e, h.cells k b hk]
      · intro b hb
        have : b ≠ x := by rintro rfl; exact hb i (by simp)
        rw [fset_ne _ _ this]
        refine h.nocell b fun k hk => ?_
        by_cases e : k = i
        · subst e; rw [hn] at hk; cases hk
        · exact hb k (by rw [fset_ne _ _ e]; exact hk)
      · intro k
        show _ ↔ live (Channel.set s.snd i _ k) = true
        by_cases e : k = i
        · subst e; simp [live, Pc.inSend]
        · rw [fset_ne _ _ e, set_ne _ _ e]; exact h.live k
    | _ => refine ⟨(by intro _; simp only [step, hm, hp]), (by intro s' e he; simp only [Channel.step, hp] at he; cases he)⟩
  | poll i w =>
    have hm : (mk s q fut cell).snd = s.snd := rfl
    cases hp : s.snd i with
    | snd v =>
      refine ⟨(by intro he; simp only [Channel.step, hp] at he; cases he), ?_⟩
      intro s' e he _
      simp only [Channel.step, hp] at he
      cases he
      obtain ⟨q', cell', h1, h2⟩ := poll_sim (w := w) h hI hp
      exact ⟨q', fut, cell', by simp only [step, hm, hp, h1], h2⟩
    | _ => refine ⟨(by intro _; simp only [step, hm, hp]), (by intro s' e he; simp only [Channel.step, hp] at he; cases he)⟩
  | cancel i =>
    have hm : (mk s q fut cell).snd = s.snd := rfl
    cases hp : s.snd i with
    | snd v =>
      refine ⟨(by intro he; simp only [Channel.step, hp] at he; cases he), ?_⟩
      intro s' e he _
      simp only [Channel.step, hp] at he
      cases he
      exact ⟨q, fut, cell, by simp only [step, hm, hp]; rfl, h.congr rfl rfl rfl (live_set (by simp [hp, live, Pc.inSend, Pc.isDrop1]))⟩
    | _ => refine ⟨(by intro _; simp only [step, hm, hp]), (by intro s' e he; simp only [Channel.step, hp] at he; cases he)⟩
  | sQuery i =>
    have hm : (mk s q fut cell).snd = s.snd := rfl
    cases hp : s.snd i with
    | idle =>
      refine ⟨(by intro he; simp only [Channel.step, hp] at he; cases he), ?_⟩
      intro s' e he _
      simp only [Channel.step, hp] at he
      cases he
      exact ⟨q, fut, cell, by simp only [step, hm, hp]; rfl, h⟩
    | _ => refine ⟨(by intro _; simp only [step, hm, hp]), (by intro s' e he; simp only [Channel.step, hp] at he; cases he)⟩
  | startTryRecv =>
    have hm : (mk s q fut cell).rx = s.rx := rfl
    cases hp : s.rx with
    | idle =>
      refine ⟨(by intro he; simp only [Channel.step, hp] at he; cases he), ?_⟩
      intro s' e he _
      simp only [Channel.step, hp] at he
      cases he
      exact ⟨q, fut, cell, by simp only [step, hm, hp]; rfl, h.congr rfl rfl rfl (fun _ => rfl)⟩
    | _ => refine ⟨(by intro _; simp only [step, hm, hp]), (by intro s' e he; simp only [Channel.step, hp] at he; cases he)⟩
  | pollRecv w =>
    have hm : (mk s q fut cell).rx = s.rx := rfl
    cases hp : s.rx
    case idle =>
      refine ⟨(by intro he; simp only [Channel.step, hp] at he; cases he), ?_⟩
      intro s' e he _
      simp only [Channel.step, hp] at he
      cases he
      exact ⟨q, fut, cell, by simp only [step, hm, hp]; rfl, h.congr rfl rfl rfl (fun _ => rfl)⟩
    case pend w' =>
      refine ⟨(by intro he; simp only [Channel.step, hp] at he; cases he), ?_⟩
      intro s' e he _
      simp only [Channel.step, hp] at he
      cases he
      exact ⟨q, fut, cell, by simp only [step, hm, hp]; rfl, h.congr rfl rfl rfl (fun _ => rfl)⟩
    all_goals refine ⟨(by intro _; simp only [step, hm, hp]), (by intro s' e he; simp only [Channel.step, hp] at he; cases he)⟩
  | cancelRecv =>
    have hm : (mk s q fut cell).rx = s.rx := rfl
    cases hp : s.rx with
    | pend w =>
      refine ⟨(by intro he; simp only [Channel.step, hp] at he; cases he), ?_⟩
      intro s' e he _
      simp only [Channel.step, hp] at he
      cases he
      exact ⟨q, fut, cell, by simp only [step, hm, hp]; rfl, h.congr rfl rfl rfl (fun _ => rfl)⟩
    | _ => refine ⟨(by intro _; simp only [step, hm, hp]), (by intro s' e he; simp only [Channel.step, hp] at he; cases he)⟩
  | dropR =>
    have hm : (mk s q fut cell).rx = s.rx := rfl
    cases hp : s.rx with
    | idle =>
      refine ⟨(by intro he; simp only [Channel.step, hp] at he; cases he), ?_⟩
      intro s' e he _
      simp only [Channel.step, hp] at he
      cases he
      exact ⟨q, fut, cell, by simp only [step, hm, hp]; rfl, h.congr rfl rfl rfl (fun _ => rfl)⟩
    | _ => refine ⟨(by intro _; simp only [step, hm, hp]), (by intro s' e he; simp only [Channel.step, hp] at he; cases he)⟩
  | rQuery =>
    have hm : (mk s q fut cell).rx = s.rx := rfl
    cases hp : s.rx with
    | idle =>
      refine ⟨(by intro he; simp only [Channel.step, hp] at he; cases he), ?_⟩
      intro s' e he _
      simp only [Channel.step, hp] at he
      cases he
      exact ⟨q, fut, cell, by simp only [step, hm, hp]; rfl, h⟩
    | _ => refine ⟨(by intro _; simp only [step, hm, hp]), (by intro s' e he; simp only [Channel.step, hp] at he; cases he)⟩

/-- `startSend` at an address in use is not possible. -/
theorem step_fresh {n x : Nat} {i : Nat} {v : T} {p : PSt T} (h : ¬ Fresh p x) : step n p (.startSend i v) x = none := by
  simp only [step]
  split
  · rw [if_neg (show ¬ (p.cell x = none ∧ p.q.mem x = none) from h)]
  · rfl

/-- Every step of the pointer machine is a step of the list-level machine, with the same event. -/
theorem step_back {n x : Nat} {a : Act T} {s : Channel.St T} {q fut cell} {p' : PSt T} {e : List (Ev T)} (h : G s q fut cell) (hI : InvQ s) (hs : step n (mk s q fut cell) a x = some (p', e)) :
    ∃ s' q' fut' cell', p' = mk s' q' fut' cell' ∧ Channel.step n s a = some (s', e) ∧ G s' q' fut' cell' := by
  have hf : ∀ i v, a = .startSend i v → Fresh (mk s q fut cell) x := by
    rintro i v rfl
    apply Classical.byContradiction
    intro hn; rw [step_fresh hn] at hs; cases hs
  cases ha : Channel.step n s a with
  | none => rw [(step_sim h hI).1 ha] at hs; cases hs
  | some r =>
    obtain ⟨q', fut', cell', h1, h2⟩ := (step_sim (x := x) h hI).2 r.1 r.2 ha hf
    rw [h1] at hs
    cases hs
    exact ⟨_, _, _, _, rfl, rfl, h2⟩

theorem g_init (n : Nat) : G (Channel.init n : Channel.St T) WaitQueue.empty (fun _ => none) (fun _ => none) := by
  refine ⟨?_, by simp, by simp, ?_⟩
  · have : ln (fun _ => none) (Channel.init n : Channel.St T).lk = fun _ => none := by funext k; simp [ln, Channel.init]
    rw [this]; exact own_init
  · intro i; simp only [Channel.init]; split <;> simp [live, Pc.inSend, Pc.isDrop1]

theorem exec_back {n : Nat} : ∀ (as : List (Act T × Nat)) (s : Channel.St T) (q fut cell) (p' : PSt T) (tr e : List (Ev T)), G s q fut cell → Channel.Reach n s tr → exec n (mk s q fut cell) as = some (p', e) →
    ∃ s' q' fut' cell', p' = mk s' q' fut' cell' ∧ Channel.Reach n s' (tr ++ e) ∧ G s' q' fut' cell'
  | [], s, q, fut, cell, p', tr, e, h, hr, he => by cases he; exact ⟨s, q, fut, cell, rfl, by simpa using hr, h⟩
  | a :: as, s, q, fut, cell, p', tr, e, h, hr, he => by
    simp only [exec] at he
    split at he
    · cases he
    · rename_i p1 e1 h1
      split at he
      · cases he
      · rename_i p2 e2 h2
        cases he
        obtain ⟨s', q', fut', cell', rfl, hs, hg⟩ := step_back h (reach_inv hr).q h1
        obtain ⟨s2, q2, fut2, cell2, hp, hr2, hg2⟩ := exec_back as s' q' fut' cell' _ (tr ++ e1) e2 hg (reach_step hr hs) h2
        exact ⟨s2, q2, fut2, cell2, hp, by simpa using hr2, hg2⟩

theorem reach_back {n : Nat} {p : PSt T} {tr : List (Ev T)} (h : Reach n p tr) :
    ∃ s q fut cell, p = mk s q fut cell ∧ Channel.Reach n s tr ∧ G s q fut cell := by
  obtain ⟨as, he⟩ := h
  obtain ⟨s, q, fut, cell, h1, h2, h3⟩ := exec_back as (Channel.init n) WaitQueue.empty (fun _ => none) (fun _ => none) p [] tr (g_init n) ⟨[], rfl⟩ he
  exact ⟨s, q, fut, cell, h1, by simpa using h2, h3⟩

theorem exec_append {n : Nat} : ∀ (as : List (Act T × Nat)) (s s1 : PSt T) (e : List (Ev T)) (a : Act T × Nat) (s2 e2), exec n s as = some (s1, e) → step n s1 a.1 a.2 = some (s2, e2) → exec n s (as ++ [a]) = some (s2, e ++ e2)
  | [], s, s1, e, a, s2, e2, h, hs => by cases h; simp [exec, hs]
  | b :: as, s, s1, e, a, s2, e2, h, hs => by
    simp only [exec] at h
    split at h
    · cases h
    · rename_i p1 e1 h1
      split at h
      · cases h
      · rename_i p2 e3 h2
        cases h
        have := exec_append as p1 s1 e3 a s2 e2 h2 hs
        simp [exec, h1, this]

theorem ret_fut (n : Nat) (p : PSt T) (x : Nat) : (returnFreeSlot n p x).1.fut = p.fut := by
  simp only [returnFreeSlot]
  split <;> try rfl
  split <;> rfl

theorem wakeR_fut (p : PSt T) : (wakeR p).1.fut = p.fut := by simp only [wakeR]; split <;> rfl
theorem register_fut (p : PSt T) (w : Nat) : (register p w).1.fut = p.fut := by
  simp only [register]
  split <;> try rfl
  split <;> rfl

theorem pollSend_fut (p : PSt T) (i : Nat) (v : T) (w : Nat) : (pollSend p i v w).fut = p.fut := by
  simp only [pollSend]
  repeat' split
  all_goals rfl

/-- A step creates at most one future, at the given address, and otherwise only removes futures. -/
theorem step_fut {n x : Nat} {a : Act T} {p p' : PSt T} {e : List (Ev T)} (h : step n p a x = some (p', e)) (j : Nat) :
    p'.fut j = p.fut j ∨ p'.fut j = none ∨ ((∃ v, a = .startSend j v) ∧ p'.fut j = some x) := by
  cases a with
  | startSend i v =>
    simp only [step] at h
    split at h
    · split at h
      · cases h
        by_cases e : j = i
        · subst e; right; right; exact ⟨⟨v, rfl⟩, by simp⟩
        · left; simp [fset_ne _ _ e]
      · cases h
    · cases h
  | go i =>
    simp only [step, goS] at h
    split at h
    case h_8 =>
      rename_i v k hk
      split at h
      · cases h; exact Or.inl rfl
      · rename_i a ha
        have : p'.fut = fset p.fut i none := by
          cases hcc : p.cell a with
          | none => simp only [hcc] at h; split at h <;> cases h <;> rfl
          | some o =>
            cases o with
            | none => simp only [hcc] at h; split at h <;> cases h <;> rfl
            | some y =>
              have hr := ret_fut n { p with cell := fset p.cell a none, fut := fset p.fut i none } y
              simp only [hcc] at h; split at h <;> cases h <;> exact hr
        rw [this]
        by_cases e : j = i
        · subst e; right; left; simp
        · left; exact fset_ne _ _ e
    all_goals (repeat' split at h) <;> (try cases h) <;> first | exact Or.inl rfl | (left; show (wakeR p).1.fut j = _; rw [wakeR_fut])
  | goR =>
    simp only [step, goR] at h
    split at h
    all_goals (repeat' split at h) <;> (try cases h) <;> first | exact Or.inl rfl | (left; show (returnFreeSlot n p _).1.fut j = _; rw [ret_fut]) | (left; show (register p _).1.fut j = _; rw [register_fut])
  | poll i w =>
    simp only [step] at h
    split at h
    · cases h; left; rw [pollSend_fut]
    · cases h
  | _ =>
    simp only [step] at h
    (repeat' split at h) <;> (try cases h) <;> exact Or.inl rfl

theorem exec_fwd {n : Nat} : ∀ (as : List (Act T)) (s : Channel.St T) (q fut cell) (s' : Channel.St T) (tr e : List (Ev T)), G s q fut cell → (∀ i a, fut i = some a → a = i) → Channel.Reach n s tr → Channel.exec n s as = some (s', e) →
    ∃ bs q' fut' cell', exec n (mk s q fut cell) bs = some (mk s' q' fut' cell', e) ∧ bs.map (·.1) = as
  | [], s, q, fut, cell, s', tr, e, h, hc, hr, he => by cases he; exact ⟨[], q, fut, cell, rfl, rfl⟩
  | a :: as, s, q, fut, cell, s', tr, e, h, hc, hr, he => by
    simp only [Channel.exec] at he
    split at he
    · cases he
    · rename_i p1 e1 h1
      split at he
      · cases he
      · rename_i p2 e2 h2
        cases he
        have hI := (reach_inv hr).q
        have hx : ∃ x, (∀ i v, a = .startSend i v → x = i ∧ Fresh (mk s q fut cell) x) := by
          cases a with
          | startSend i v =>
            refine ⟨i, fun i' v' hh => ?_⟩
            cases hh
            refine ⟨rfl, (fresh_iff h i).2 fun k hk => ?_⟩
            have := hc k i hk; subst this
            have hp : s.snd i = .idle := by
              simp only [Channel.step] at h1
              split at h1
              · assumption
              · cases h1
            have := (h.live i).1 (by simp [hk])
            simp [hp, live, Pc.inSend, Pc.isDrop1] at this
          | _ => exact ⟨0, by intro i v hh; cases hh⟩
        obtain ⟨x, hx⟩ := hx
        obtain ⟨q', fut', cell', hs, hg⟩ := (step_sim (x := x) h hI).2 _ _ h1 fun i v hh => (hx i v hh).2
        have hc' : ∀ i a, fut' i = some a → a = i := by
          intro i b hb
          rcases step_fut hs i with h3 | h3 | ⟨⟨v, h3⟩, h4⟩
          · exact hc i b (by rw [← hb]; exact h3.symm)
          · have : fut' i = none := h3; rw [hb] at this; cases this
          · have : fut' i = some x := h4
            rw [hb] at this
            have := (hx i v h3).1
            grind
        obtain ⟨bs, q2, fut2, cell2, hb, hm⟩ := exec_fwd as p1 q' fut' cell' _ (tr ++ e1) e2 hg hc' (reach_step hr h1) h2
        exact ⟨(a, x) :: bs, q2, fut2, cell2, by simp [exec, hs, hb], by simp [hm]⟩

/-! ## Specification and theorems -/

/-- The two machines agree on everything a user can see: queues, contents of slots, flags, wakers, who executes what. -/
structure Agree (p : PSt T) (s : Channel.St T) : Prop where
  free : p.free = s.free
  ready : p.ready = s.ready
  slots : p.slots = s.slots
  rcvDropped : p.rcvDropped = s.rcvDropped
  num : p.num = s.num
  rwk : p.rwk = s.rwk
  snd : p.snd = s.snd
  rx : p.rx = s.rx

/-- **C80** No access to memory that is not a live variable: neither the wait queue (`push`, `pop`, `remove_from_list`) nor the write of a returned slot into a waiting `send` ever touches the variables of a future that is gone, whatever
addresses the futures have and however the memory of gone futures is reused. -/
theorem C80_channel_no_fault {n : Nat} {p : PSt T} {tr : List (Ev T)} (h : Reach n p tr) : p.bad = false := by
  obtain ⟨s, q, fut, cell, rfl, hr, -⟩ := reach_back h
  exact (reach_inv hr).s.nobad

/-- **C80** Every history of the channel on the intrusive queue is a history of the list-level channel (`Verif.Channel`): C01–C11 hold of it. -/
theorem C80_channel_refines {n : Nat} {p : PSt T} {tr : List (Ev T)} (h : Reach n p tr) : ∃ s, Channel.Reach n s tr ∧ Agree p s := by
  obtain ⟨s, q, fut, cell, rfl, hr, -⟩ := reach_back h
  exact ⟨s, hr, rfl, rfl, rfl, rfl, rfl, rfl, rfl, rfl⟩

/-- **C80** And conversely: the intrusive queue never blocks a history. -/
theorem C80_channel_complete {n : Nat} {s : Channel.St T} {tr : List (Ev T)} (h : Channel.Reach n s tr) : ∃ p, Reach n p tr ∧ Agree p s := by
  obtain ⟨as, he⟩ := h
  obtain ⟨bs, q, fut, cell, hb, -⟩ := exec_fwd as (Channel.init n) WaitQueue.empty (fun _ => none) (fun _ => none) s [] tr (g_init n) (by simp) ⟨[], rfl⟩ he
  exact ⟨_, ⟨bs, hb⟩, rfl, rfl, rfl, rfl, rfl, rfl, rfl, rfl⟩

/-- **C80** The queue is a consistent doubly linked list, and its nodes are exactly the not yet popped links of live `send` futures; there is no link outside the memory of a live `send` future. -/
theorem C80_channel_linked {n : Nat} {p : PSt T} {tr : List (Ev T)} (h : Reach n p tr) :
    ∃ as, Linked p.q as ∧
      (∀ a, a ∈ as ↔ ∃ l, p.q.mem a = some l ∧ l.isPopped = false) ∧
      (∀ a l, p.q.mem a = some l → ∃ i v, p.fut i = some a ∧ (p.snd i = .snd v ∨ ∃ k, p.snd i = .drop0 v k) ∧ l.val.who = i ∧ l.val.slot = a) ∧
      (∀ i j a, p.fut i = some a → p.fut j = some a → i = j) := by
  obtain ⟨s, q, fut, cell, rfl, hr, hg⟩ := reach_back h
  obtain ⟨as, hm, hl⟩ := hg.own.linked
  have hI := (reach_inv hr).q
  have hlink : ∀ a l, q.mem a = some l → ∃ i, fut i = some a ∧ ln fut s.lk i = some (l.val, l.isPopped) := by
    intro a l hal
    by_cases hx : ∃ i, fut i = some a
    · obtain ⟨i, hi⟩ := hx
      refine ⟨i, hi, ?_⟩
      rw [← hg.own.mem i a hi, hal]; rfl
    · have := hg.own.rest a (by simpa using hx)
      rw [hal] at this; cases this
  refine ⟨as, hl, ?_, ?_, hg.own.inj⟩
  · intro a
    constructor
    · intro ha
      obtain ⟨k, hk⟩ := List.mem_iff_getElem?.1 ha
      obtain ⟨l, h1, h2, -⟩ := hl.2.2.2 k a hk
      exact ⟨l, h1, h2⟩
    · rintro ⟨l, h1, h2⟩
      obtain ⟨i, hi, hln⟩ := hlink a l h1
      obtain ⟨m, hm1, hm2⟩ := Option.map_eq_some_iff.1 hln
      have : i ∈ s.wq := (hI.mem i).2 ⟨m, hm1, by simp at hm2; rw [hm2.2, h2]⟩
      exact (mem_iff hg.own.inj hm hi).2 this
  · intro a l hal
    obtain ⟨i, hi, hln⟩ := hlink a l hal
    obtain ⟨m, hm1, hm2⟩ := Option.map_eq_some_iff.1 hln
    have := hI.lkpc i m hm1
    have hv : ∃ v, s.snd i = .snd v ∨ ∃ k, s.snd i = .drop0 v k := by
      cases hs : s.snd i <;> rw [hs] at this <;> simp [Pc.inSend] at this <;> simp
    obtain ⟨v, hv⟩ := hv
    simp only [Prod.mk.injEq] at hm2
    refine ⟨i, v, hi, hv, ?_, ?_⟩
    · rw [← hm2.1]
    · rw [← hm2.1]; simp [hi]

/-- **C80** A freed slot given to a waiting `send` is written into the variable of that live future, and the future is the oldest one waiting. -/
theorem C80_channel_slot_lands {n : Nat} {p : PSt T} {tr : List (Ev T)} (h : Reach n p tr) {q' : WQ WData} {d : WData} (hp : p.q.pop = some (q', some d)) :
    p.fut d.who = some d.slot ∧ p.cell d.slot ≠ none ∧ ∃ v, p.snd d.who = .snd v ∨ ∃ k, p.snd d.who = .drop0 v k := by
  obtain ⟨as, hl, -, hlive, -⟩ := C80_channel_linked h
  obtain ⟨s, q, fut, cell, rfl, hr, hg⟩ := reach_back h
  have hh : ∃ a l, q.mem a = some l ∧ l.val = d := by
    have hp : q.pop = some (q', some d) := hp
    have ho := hg.own
    cases hw : s.wq with
    | nil => rw [hw] at ho; rw [ho.popNil] at hp; cases hp
    | cons j wq =>
      rw [hw] at ho
      obtain ⟨a, ha⟩ := ho.addr (List.mem_cons_self ..)
      obtain ⟨q2, v, hv, hpop, -⟩ := ho.pop
      rw [hpop] at hp; cases hp
      obtain ⟨l, h1, h2, -⟩ := (hg.own.read ha).2 _ _ hv
      exact ⟨a, l, h1, h2⟩
  obtain ⟨a, l, ha, rfl⟩ := hh
  obtain ⟨i, v, h1, h2, h3, h4⟩ := hlive a l ha
  rw [h3, h4]
  exact ⟨h1, by rw [show (mk s q fut cell).cell = cell from rfl, hg.cells i a h1]; simp, v, h2⟩

/-! Concrete, non-trivial case: channel of capacity 1, full; the `send` of sender 1, with its variables at address 100, waits and is cancelled; the memory is reused by the `send` of sender 2, which waits; the receiver takes the value: the
freed slot is written to address 100, and it is sender 2 that is woken and gets it. -/
def demo : List (Act Nat × Nat) :=
  [(.clone 0 1, 0), (.clone 0 2, 0), (.startTry 0 7, 0), (.go 0, 0), (.go 0, 0), (.go 0, 0), (.go 0, 0), (.go 0, 0), (.go 0, 0),
   (.startSend 1 8, 100), (.poll 1 11, 0), (.cancel 1, 0), (.go 1, 0), (.go 1, 0),
   (.startSend 2 9, 100), (.poll 2 12, 0),
   (.startTryRecv, 0), (.goR, 0), (.goR, 0), (.goR, 0)]

example : (exec 1 (init 1) demo).map (fun r => (r.1.bad, r.1.fut 2, r.1.cell 100, r.1.q.mem 100 |>.map (fun l => (l.val.who, l.isPopped)))) = some (false, some 100, some (some 0), some (2, true)) := by rfl

example : (exec 1 (init 1) demo).map (·.2) = some [.start 0 7, .enq 0 7, .sendOk 0, .start 1 8, .cancelled 1 8, .start 2 9, .wokeS 2 12, .recvd 7] := by rfl

/-- the address of a live future cannot be used by another one -/
example : (exec 1 (init 1) (demo ++ [(.startSend 1 3, 100)])).isNone = true := by rfl
example : (exec 1 (init 1) (demo ++ [(.startSend 1 3, 101)])).isSome = true := by rfl

end Verif.Intrusive.Chan
