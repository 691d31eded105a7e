import Verif.TimerQueue.Model
import Verif.Ticks.Lemmas

namespace Verif.TimerQueue

@[simp, grind =] theorem set_apply {β : Type} (f : Nat → β) (i : Nat) (x : β) (j : Nat) :
    set f i x j = if j = i then x else f j := rfl

theorem near_iff {w a b : Nat} : near w a b = true ↔ a < b + half w ∧ b < a + half w := by simp [near]

theorem atLeast_eq {w now t : Nat} (hw : 0 < w) (h : near w now t = true) : atLeast w now t = decide (t ≤ now) := by
  rw [near_iff, half] at h
  have h1 := Ticks.toInt_tick_sub_of_bounds (w := w) (a := now) (b := t) hw (by omega) h.1
  unfold Ticks.tick at h1
  rw [Bool.eq_iff_iff, atLeast, Ticks.isAtLeast_iff, h1, decide_eq_true_iff]
  omega

theorem before_eq {w a b : Nat} (hw : 0 < w) (h : near w a b = true) : before w a b = decide (a < b) := by
  rw [near_iff, half] at h
  have h1 := Ticks.toInt_tick_sub_of_bounds (w := w) (a := a) (b := b) hw (by omega) h.1
  unfold Ticks.tick at h1
  have h3 := Ticks.compare_lt_iff (BitVec.ofNat w a) (BitVec.ofNat w b)
  rw [h1] at h3
  rw [Bool.eq_iff_iff, before, beq_iff_eq, h3, decide_eq_true_iff]
  omega

theorem near_comm {w a b : Nat} : near w a b = near w b a := by
  simp only [near]; rw [Bool.eq_iff_iff]; simp; omega

/-! ## Insertion -/

theorem mem_insE (w : Nat) (e : E) (x : E) : ∀ q, x ∈ insE w e q ↔ x = e ∨ x ∈ q
  | [] => by simp [insE]
  | y :: q => by
    simp only [insE]; split
    · simp
    · rw [List.mem_cons, mem_insE w e x q, List.mem_cons]; grind

theorem insE_perm (w : Nat) (e : E) : ∀ q, (insE w e q).Perm (e :: q)
  | [] => .refl _
  | y :: q => by
    simp only [insE]; split
    · exact .refl _
    · exact ((insE_perm w e q).cons y).trans (List.Perm.swap e y q)

theorem insE_sorted {w : Nat} (hw : 0 < w) (e : E) : ∀ q : List E, (∀ x ∈ q, near w x.time e.time = true) →
    q.Pairwise (fun a b => a.time ≤ b.time) → (insE w e q).Pairwise (fun a b => a.time ≤ b.time)
  | [], _, _ => by simp [insE]
  | y :: q, hn, hs => by
    have hb := before_eq hw (near_comm.trans (hn y List.mem_cons_self))
    rw [List.pairwise_cons] at hs
    simp only [insE]
    split
    · rename_i h
      rw [hb] at h
      have hlt : e.time < y.time := by simpa using h
      rw [List.pairwise_cons]
      refine ⟨?_, List.pairwise_cons.2 hs⟩
      intro x hx
      rcases List.mem_cons.1 hx with rfl | hx
      · omega
      · have := hs.1 x hx; omega
    · rename_i h
      rw [hb] at h
      have hge : y.time ≤ e.time := by simpa using h
      rw [List.pairwise_cons]
      refine ⟨?_, insE_sorted hw e q (fun x hx => hn x (List.mem_cons_of_mem _ hx)) hs.2⟩
      intro x hx
      rcases (mem_insE w e x q).1 hx with rfl | hx
      · exact hge
      · exact hs.1 x hx

/-- Earliest time in the list. -/
theorem insE_head {w : Nat} (e : E) (q : List E) :
    (headUpd w e q = true ∧ (insE w e q).head? = some e) ∨ (headUpd w e q = false ∧ (insE w e q).head? = q.head? ∧ q ≠ []) := by
  cases q with
  | nil => simp [headUpd, insE]
  | cons x q =>
    simp only [headUpd, insE]
    cases h : before w e.time x.time <;> simp

/-! ## Case analysis of the step function (proof device) -/

inductive Tr (b : Cfg) (s : St) : Act → St → List Ev → Prop where
  | tick (m o p) (h1 : ∀ e ∈ s.q, s.now + 1 < e.time + half b.w) (h2 : ∀ t, s.h.inst? = some t → s.now + 1 < t + half b.w)
      (h3 : s.cmp = some (s.now + 1) → (m || o || p) = true) :
    Tr b s (.tick m o p) { s with now := s.now + 1, flag := s.flag || m, other := s.other || o, pend := s.pend || p } []
  | create (i t) (hp : s.pc i = .none) :
    Tr b s (.create i t) { s with pc := set s.pc i .alive, inst := set s.inst i t, lk := set s.lk i none } []
  | pollReady (i wk) (hp : s.pc i = .alive) (hn : near b.w s.now (s.inst i) = true) (hr : atLeast b.w s.now (s.inst i) = true) :
    Tr b s (.poll i wk) s [.ready i]
  | pollWait (i wk x) (hp : s.pc i = .alive) (hn : near b.w s.now (s.inst i) = true) (hr : atLeast b.w s.now (s.inst i) = false)
      (hl : s.lk i = some x) : Tr b s (.poll i wk) s []
  | pollNew (i wk) (hp : s.pc i = .alive) (hn : near b.w s.now (s.inst i) = true) (hr : atLeast b.w s.now (s.inst i) = false)
      (hl : s.lk i = none) : Tr b s (.poll i wk) { s with pc := set s.pc i (.p1 wk) } []
  | ins (i wk) (hp : s.pc i = .p1 wk) (hn : near b.w s.now (s.inst i) = true) (hq : ∀ e ∈ s.q, near b.w e.time (s.inst i) = true) :
    Tr b s (.ins i) { s with q := insE b.w { id := i, wk := wk, time := s.inst i } s.q, lk := set s.lk i (some false), pc := set s.pc i (if headUpd b.w { id := i, wk := wk, time := s.inst i } s.q then .p2 else .alive) } [.inserted i]
  | pend (i) (hp : s.pc i = .p2) : Tr b s (.pend i) { s with pend := true, pc := set s.pc i .alive } []
  | dropQ (i) (hp : s.pc i = .alive) (hl : s.lk i = some false) : Tr b s (.drop i) { s with pc := set s.pc i .d1 } []
  | dropN (i) (hp : s.pc i = .alive) (hl : s.lk i ≠ some false) : Tr b s (.drop i) { s with pc := set s.pc i .none } [.dropped i]
  | del (i) (hp : s.pc i = .d1) :
    Tr b s (.del i) { s with q := s.q.filter (fun e => e.id ≠ i), pc := set s.pc i .none } [.dropped i]
  | start (hh : s.h = .idle) (hi : s.irq = true) : Tr b s .start { s with pend := false, h := .h0 } []
  | clear (hh : s.h = .h0) : Tr b s .hgo { s with flag := false, cmp := none, h := .h0b } []
  | onIrq (hh : s.h = .h0b) : Tr b s .hgo { s with other := false, h := .h1 } []
  | popEmpty (hh : s.h = .h1) (hq : s.q = []) : Tr b s .hgo { s with h := .h5 } []
  | popYes (e q) (hh : s.h = .h1) (hq : s.q = e :: q) (hr : atLeast b.w s.now e.time = true) :
    Tr b s .hgo { s with q := q, lk := set s.lk e.id (some true), h := .h2 e.wk } [.popped e s.now]
  | popNo (e q) (hh : s.h = .h1) (hq : s.q = e :: q) (hr : atLeast b.w s.now e.time = false) :
    Tr b s .hgo { s with lk := set s.lk e.id (some false), h := .h3 e.time } []
  | wake (wk) (hh : s.h = .h2 wk) : Tr b s .hgo { s with h := .h1 } [.woke wk]
  | enable (t) (hh : s.h = .h3 t) : Tr b s .hgo { s with en := true, h := .h3b t } []
  | again (t) (hh : s.h = .h4 t) (hr : atLeast b.w s.now t = true) : Tr b s .hgo { s with h := .h1 } []
  | finish (t) (hh : s.h = .h4 t) (hr : atLeast b.w s.now t = false) : Tr b s .hgo { s with h := .idle } []
  | disable (hh : s.h = .h5) : Tr b s .hgo { s with en := b.noop, h := .idle } []
  | arm (c t) (hh : s.h = .h3b t) (hc : s.now < t → (s.now < c ∧ c ≤ t + b.sl) ∨ s.irq = true) :
    Tr b s (.arm c) { s with cmp := some c, req := some t, h := .h4 t } []

theorem tr_of_step {b : Cfg} {s s' : St} {a : Act} {e : List Ev} (hs : step b s a = some (s', e)) : Tr b s a s' e := by
  cases a with
  | tick m o p => simp only [step] at hs; split at hs <;> cases hs; rename_i h; exact .tick m o p h.1 h.2.1 h.2.2
  | create i t => simp only [step] at hs; split at hs <;> cases hs; exact .create i t (by assumption)
  | poll i wk =>
    simp only [step] at hs
    split at hs
    · rename_i hp
      split at hs
      · rename_i hn
        split at hs
        · rename_i hr; cases hs; exact .pollReady i wk hp hn hr
        · rename_i hr
          have hr : atLeast b.w s.now (s.inst i) = false := by simpa using hr
          split at hs
          · rename_i x hl; cases hs; exact .pollWait i wk x hp hn hr hl
          · rename_i hl; cases hs; exact .pollNew i wk hp hn hr hl
      · cases hs
    · cases hs
  | ins i =>
    simp only [step] at hs
    split at hs
    · rename_i wk hp
      split at hs
      · rename_i hn; cases hs; exact .ins i wk hp hn.1 hn.2
      · cases hs
    · cases hs
  | pend i => simp only [step] at hs; split at hs <;> cases hs; exact .pend i (by assumption)
  | drop i =>
    simp only [step] at hs
    split at hs
    · rename_i hp
      split at hs
      · rename_i hl; cases hs; exact .dropQ i hp hl
      · rename_i hl; cases hs; exact .dropN i hp hl
    · cases hs
  | del i => simp only [step] at hs; split at hs <;> cases hs; exact .del i (by assumption)
  | start =>
    simp only [step] at hs
    split at hs
    · rename_i hh
      split at hs
      · rename_i hi; cases hs; exact .start hh hi
      · cases hs
    · cases hs
  | hgo =>
    cases hh : s.h with
    | h0 => simp only [step, hh] at hs; cases hs; exact .clear hh
    | h0b => simp only [step, hh] at hs; cases hs; exact .onIrq hh
    | h1 =>
      cases hq : s.q with
      | nil => simp only [step, hh, hq] at hs; cases hs; have := Tr.popEmpty (b := b) hh hq; rwa [hq] at this
      | cons e q =>
        simp only [step, hh, hq] at hs
        split at hs
        · rename_i hr; cases hs; exact .popYes e q hh hq hr
        · rename_i hr; cases hs; have := Tr.popNo (b := b) e q hh hq (by simpa using hr); rwa [hq] at this
    | h2 wk => simp only [step, hh] at hs; cases hs; exact .wake wk hh
    | h3 t => simp only [step, hh] at hs; cases hs; exact .enable t hh
    | h4 t =>
      simp only [step, hh] at hs
      split at hs
      · rename_i hr; cases hs; exact .again t hh hr
      · rename_i hr; cases hs; exact .finish t hh (by simpa using hr)
    | h5 => simp only [step, hh] at hs; cases hs; exact .disable hh
    | _ => simp only [step, hh] at hs; cases hs
  | arm c =>
    simp only [step] at hs
    split at hs
    · rename_i t hh
      split at hs
      · rename_i hc; cases hs; exact .arm c t hh hc
      · cases hs
    · cases hs

/-! ## Invariants -/

/-- Structure: sorted, each waiting delay exactly once, flags agree. -/
structure Inv (b : Cfg) (s : St) : Prop where
  sorted : s.q.Pairwise (fun x y => x.time ≤ y.time)
  nodup : (s.q.map (·.id)).Nodup
  mem : ∀ i, (∃ e ∈ s.q, e.id = i) ↔ (s.pc i = .alive ∨ s.pc i = .p2 ∨ s.pc i = .d1) ∧ s.lk i = some false
  time : ∀ e ∈ s.q, e.time = s.inst e.id
  p1 : ∀ i wk, s.pc i = .p1 wk → s.lk i = none
  p2 : ∀ i, s.pc i = .p2 → s.lk i ≠ none
  win : ∀ e ∈ s.q, near b.w s.now e.time = true
  hwin : ∀ t, s.h.inst? = some t → near b.w s.now t = true

theorem inv_init (b : Cfg) : Inv b (init b.noop) := by
  constructor <;> simp [init, Hpc.inst?]

theorem inv_step {b : Cfg} (hw : 0 < b.w) {s s' : St} {a : Act} {e : List Ev} (h : Inv b s) (hs : step b s a = some (s', e)) :
    Inv b s' := by
  obtain ⟨h1, h2, h3, h4, h5, h6, h7, h8⟩ := h
  cases tr_of_step hs with
  | tick m o p h9 h10 h11 =>
    refine ⟨h1, h2, h3, h4, h5, h6, ?_, ?_⟩
    · intro e he; have := h7 e he; have := h9 e he; rw [near_iff] at *; dsimp only; omega
    · intro t ht; have := h8 t ht; have := h10 t ht; rw [near_iff] at *; dsimp only; omega
  | create i t hp =>
    have hni : ∀ e ∈ s.q, e.id ≠ i := by
      intro e he hid; have := (h3 i).1 ⟨e, he, hid⟩; simp [hp] at this
    refine ⟨h1, h2, ?_, ?_, ?_, ?_, h7, h8⟩
    · intro j; have := h3 j; by_cases hj : j = i
      · subst hj; simp [this]; grind
      · simp [hj, this]
    · intro e he; simp [hni e he, h4 e he]
    · grind
    · grind
  | pollReady => exact ⟨h1, h2, h3, h4, h5, h6, h7, h8⟩
  | pollWait => exact ⟨h1, h2, h3, h4, h5, h6, h7, h8⟩
  | pollNew i wk hp hn hr hl =>
    refine ⟨h1, h2, ?_, h4, ?_, ?_, h7, h8⟩
    · intro j; have := h3 j; by_cases hj : j = i
      · subst hj; simp [this, hl]
      · simp [hj, this]
    · grind
    · grind
  | ins i wk hp hn hq =>
    have hni : ∀ e ∈ s.q, e.id ≠ i := by
      intro e he hid; have := (h3 i).1 ⟨e, he, hid⟩; simp [hp] at this
    refine ⟨insE_sorted hw _ _ hq h1, ?_, ?_, ?_, ?_, ?_, ?_, h8⟩
    · rw [((insE_perm b.w _ s.q).map (·.id)).nodup_iff]
      simp only [List.map_cons, List.nodup_cons]
      refine ⟨?_, h2⟩
      intro hm; rw [List.mem_map] at hm; obtain ⟨e, he, hid⟩ := hm; exact hni e he hid
    · intro j; have := h3 j
      by_cases hj : j = i
      · subst hj
        have : ∃ e ∈ insE b.w { id := j, wk := wk, time := s.inst j } s.q, e.id = j := ⟨_, (mem_insE _ _ _ _).2 (.inl rfl), rfl⟩
        simp only [this, set_apply, if_pos, true_iff]
        split <;> simp
      · simp only [set_apply, if_neg hj]
        rw [← this]
        constructor
        · rintro ⟨e, he, hid⟩
          rcases (mem_insE _ _ _ _).1 he with rfl | he
          · exact absurd hid (fun h => hj h.symm)
          · exact ⟨e, he, hid⟩
        · rintro ⟨e, he, hid⟩; exact ⟨e, (mem_insE _ _ _ _).2 (.inr he), hid⟩
    · intro e he
      rcases (mem_insE _ _ _ _).1 he with rfl | he
      · rfl
      · exact h4 e he
    · intro j wk' hj
      have := h5 j wk'
      simp only [set_apply] at *
      split at hj
      · split at hj <;> cases hj
      · rename_i hne; simp [hne, this hj]
    · intro j hj
      have := h6 j
      simp only [set_apply] at *
      split <;> simp_all
    · intro e he
      rcases (mem_insE _ _ _ _).1 he with rfl | he
      · exact hn
      · exact h7 e he
  | pend i hp =>
    refine ⟨h1, h2, ?_, h4, ?_, ?_, h7, h8⟩
    · intro j; have := h3 j; by_cases hj : j = i
      · subst hj; simp [this, hp]
      · simp [hj, this]
    · grind
    · grind
  | dropQ i hp hl =>
    refine ⟨h1, h2, ?_, h4, ?_, ?_, h7, h8⟩
    · intro j; have := h3 j; by_cases hj : j = i
      · subst hj; simp [this, hp]
      · simp [hj, this]
    · grind
    · grind
  | dropN i hp hl =>
    refine ⟨h1, h2, ?_, h4, ?_, ?_, h7, h8⟩
    · intro j; have := h3 j; by_cases hj : j = i
      · subst hj; simp [this, hl]
      · simp [hj, this]
    · grind
    · grind
  | del i hp =>
    refine ⟨h1.filter _, ?_, ?_, ?_, ?_, ?_, ?_, h8⟩
    · exact h2.sublist (List.Sublist.map _ List.filter_sublist)
    · intro j; have := h3 j; by_cases hj : j = i
      · subst hj
        simp
      · simp only [set_apply, if_neg hj]; rw [← this]
        constructor
        · rintro ⟨e, he, hid⟩; exact ⟨e, (List.mem_filter.1 he).1, hid⟩
        · rintro ⟨e, he, hid⟩; exact ⟨e, List.mem_filter.2 ⟨he, by simp [hid, hj]⟩, hid⟩
    · intro e he; exact h4 e (List.mem_filter.1 he).1
    · grind
    · grind
    · intro e he; exact h7 e (List.mem_filter.1 he).1
  | popYes e q hh hq hr =>
    rw [hq] at h1 h2 h3 h4 h7
    simp only [List.map_cons, List.nodup_cons] at h2
    have hlk : s.lk e.id = some false := ((h3 e.id).1 ⟨e, List.mem_cons_self, rfl⟩).2
    refine ⟨(List.pairwise_cons.1 h1).2, h2.2, ?_, ?_, ?_, ?_, ?_, by simp [Hpc.inst?]⟩
    · intro j; have := h3 j
      by_cases hj : j = e.id
      · subst hj
        simp only [set_apply, if_pos]
        constructor
        · rintro ⟨x, hx, hid⟩; exact absurd (List.mem_map.2 ⟨x, hx, hid⟩) h2.1
        · rintro ⟨-, h⟩; cases h
      · simp only [set_apply, if_neg hj]; rw [← this]
        constructor
        · rintro ⟨x, hx, hid⟩; exact ⟨x, List.mem_cons_of_mem _ hx, hid⟩
        · rintro ⟨x, hx, hid⟩
          rcases List.mem_cons.1 hx with rfl | hx
          · exact absurd hid.symm hj
          · exact ⟨x, hx, hid⟩
    · intro x hx; exact h4 x (List.mem_cons_of_mem _ hx)
    · intro j wk hj; have := h5 j wk hj; simp only [set_apply]; split
      · rename_i h; subst h; rw [hlk] at this; cases this
      · exact this
    · intro j hj; have := h6 j hj; simp only [set_apply]; split
      · simp
      · exact this
    · intro x hx; exact h7 x (List.mem_cons_of_mem _ hx)
  | popNo e q hh hq hr =>
    have hlk : s.lk e.id = some false := ((h3 e.id).1 ⟨e, by rw [hq]; exact List.mem_cons_self, rfl⟩).2
    have hset : set s.lk e.id (some false) = s.lk := by
      funext j; simp only [set_apply]; split
      · rename_i h; rw [h, hlk]
      · rfl
    refine ⟨h1, h2, by rw [hset]; exact h3, h4, by rw [hset]; exact h5, by rw [hset]; exact h6, h7, ?_⟩
    intro t ht; simp [Hpc.inst?] at ht; subst ht; exact h7 e (by rw [hq]; exact List.mem_cons_self)
  | enable t hh => exact ⟨h1, h2, h3, h4, h5, h6, h7, by intro t' ht; simp [Hpc.inst?] at ht; subst ht; exact h8 t (by simp [hh, Hpc.inst?])⟩
  | arm c t hh hc => exact ⟨h1, h2, h3, h4, h5, h6, h7, by intro t' ht; simp [Hpc.inst?] at ht; subst ht; exact h8 t (by simp [hh, Hpc.inst?])⟩
  | _ => exact ⟨h1, h2, h3, h4, h5, h6, h7, by simp [Hpc.inst?]⟩

/-- Some poll that inserted a new head is about to pend the interrupt. -/
def AboutToPend (s : St) : Prop := ∃ i, s.pc i = .p2

/-- `t` is not later than any waiting entry. -/
def NotAfter (t : Nat) (s : St) : Prop := ∀ e ∈ s.q, t ≤ e.time

/-- The compare interrupt is enabled and will fire in the future, for a time not later than any waiting entry (plus the backend's slack). -/
def Armed (b : Cfg) (s : St) : Prop := s.en = true ∧ ∃ c, s.cmp = some c ∧ s.now < c ∧ ∀ e ∈ s.q, c ≤ e.time + b.sl

/-- Arming: what guarantees that waiting entries are served. -/
def Arm (b : Cfg) (s : St) : Prop :=
  match s.h with
  | .idle => s.q = [] ∨ s.irq = true ∨ AboutToPend s ∨ Armed b s
  | .h0 | .h0b | .h1 | .h2 _ => True
  | .h3 t => s.pend = true ∨ AboutToPend s ∨ NotAfter t s
  | .h3b t => s.en = true ∧ (s.pend = true ∨ AboutToPend s ∨ NotAfter t s)
  | .h4 t => s.en = true ∧ (s.pend = true ∨ AboutToPend s ∨ (NotAfter t s ∧ (t ≤ s.now ∨ s.irq = true ∨ Armed b s)))
  | .h5 => s.q = [] ∨ s.pend = true ∨ AboutToPend s

theorem headUpd_false {w : Nat} (hw : 0 < w) {e : E} {s : St} (hs : s.q.Pairwise (fun x y => x.time ≤ y.time))
    (hq : ∀ x ∈ s.q, near w x.time e.time = true) (hf : headUpd w e s.q = false) : s.q ≠ [] ∧ ∃ x ∈ s.q, x.time ≤ e.time := by
  cases hsq : s.q with
  | nil => rw [hsq] at hf; cases hf
  | cons x q =>
    rw [hsq] at hf hq
    refine ⟨by simp, x, List.mem_cons_self, ?_⟩
    have := before_eq hw (near_comm.trans (hq x List.mem_cons_self))
    simp only [headUpd] at hf
    rw [hf] at this
    simpa using this.symm

theorem arm_step {b : Cfg} (hw : 0 < b.w) {s s' : St} {a : Act} {e : List Ev} (hI : Inv b s) (h : Arm b s) (hs : step b s a = some (s', e)) :
    Arm b s' := by
  cases tr_of_step hs with
  | tick m o p h9 h10 h11 =>
    simp only [Arm] at *
    cases hh : s.h <;> simp only [hh] at h ⊢ <;> simp_all [St.irq, AboutToPend, Armed, NotAfter] <;> grind
  | create i t hp =>
    simp only [Arm] at *
    cases hh : s.h <;> simp only [hh] at h ⊢ <;> simp_all [St.irq, AboutToPend, Armed, NotAfter] <;> grind
  | pollReady => exact h
  | pollWait => exact h
  | pollNew i wk hp =>
    simp only [Arm] at *
    cases hh : s.h <;> simp only [hh] at h ⊢ <;> simp_all [St.irq, AboutToPend, Armed, NotAfter] <;> grind
  | ins i wk hp hn hq =>
    have hA : ∀ j, s.pc j = .p2 → j ≠ i := by intro j hj hji; subst hji; rw [hp] at hj; cases hj
    cases hu : headUpd b.w { id := i, wk := wk, time := s.inst i } s.q with
    | true =>
      have : AboutToPend { s with q := insE b.w { id := i, wk := wk, time := s.inst i } s.q, lk := set s.lk i (some false), pc := set s.pc i (if true then .p2 else .alive) } :=
        ⟨i, by simp⟩
      simp only [Arm] at *
      cases hh : s.h <;> simp only [hh] at h ⊢ <;> simp_all
    | false =>
      obtain ⟨h1, x, hx, hxt⟩ := headUpd_false hw hI.sorted hq hu
      have hA' : AboutToPend s → AboutToPend { s with q := insE b.w { id := i, wk := wk, time := s.inst i } s.q, lk := set s.lk i (some false), pc := set s.pc i (if false = true then .p2 else .alive) } := by
        rintro ⟨j, hj⟩; exact ⟨j, by simp [hA j hj, hj]⟩
      have hN : ∀ t, NotAfter t s → NotAfter t { s with q := insE b.w { id := i, wk := wk, time := s.inst i } s.q, lk := set s.lk i (some false), pc := set s.pc i (if false = true then .p2 else .alive) } := by
        intro t ht e he
        rcases (mem_insE _ _ _ _).1 he with rfl | he
        · exact Nat.le_trans (ht x hx) hxt
        · exact ht e he
      have hR : Armed b s → Armed b { s with q := insE b.w { id := i, wk := wk, time := s.inst i } s.q, lk := set s.lk i (some false), pc := set s.pc i (if false = true then .p2 else .alive) } := by
        rintro ⟨h2, c, h3, h4, h5⟩
        refine ⟨h2, c, h3, h4, ?_⟩
        intro e he
        rcases (mem_insE _ _ _ _).1 he with rfl | he
        · have := h5 x hx; dsimp only at hxt ⊢; omega
        · exact h5 e he
      simp only [Arm] at *
      cases hh : s.h <;> simp only [hh] at h ⊢
      case idle =>
        rcases h with h | h | h | h
        · exact absurd h h1
        · exact .inr (.inl h)
        · exact .inr (.inr (.inl (hA' h)))
        · exact .inr (.inr (.inr (hR h)))
      case h3 t => exact h.imp id (Or.imp hA' (hN t))
      case h3b t => exact ⟨h.1, h.2.imp id (Or.imp hA' (hN t))⟩
      case h4 t => exact ⟨h.1, h.2.imp id (Or.imp hA' (And.imp (hN t) (Or.imp id (Or.imp id hR))))⟩
      case h5 =>
        rcases h with h | h | h
        · exact absurd h h1
        · exact .inr (.inl h)
        · exact .inr (.inr (hA' h))
  | pend i hp =>
    simp only [Arm] at *
    cases hh : s.h <;> simp only [hh] at h ⊢ <;> simp_all [St.irq]
  | dropQ i hp hl =>
    simp only [Arm] at *
    cases hh : s.h <;> simp only [hh] at h ⊢ <;> simp_all [St.irq, AboutToPend, Armed, NotAfter] <;> grind
  | dropN i hp hl =>
    simp only [Arm] at *
    cases hh : s.h <;> simp only [hh] at h ⊢ <;> simp_all [St.irq, AboutToPend, Armed, NotAfter] <;> grind
  | del i hp =>
    simp only [Arm] at *
    cases hh : s.h <;> simp only [hh] at h ⊢ <;> simp_all [St.irq, AboutToPend, Armed, NotAfter] <;> grind
  | start hh hi => simp [Arm]
  | clear hh => simp [Arm]
  | onIrq hh => simp [Arm]
  | popEmpty hh hq => simp [Arm, hq]
  | popYes e q hh hq hr => simp [Arm]
  | popNo e q hh hq hr =>
    simp only [Arm]
    refine .inr (.inr ?_)
    intro x hx
    have hso := hI.sorted
    have hx : x ∈ s.q := hx
    rw [hq] at hso hx
    rcases List.mem_cons.1 hx with rfl | hx
    · exact Nat.le_refl _
    · exact (List.pairwise_cons.1 hso).1 x hx
  | wake wk hh => simp [Arm]
  | enable t hh => simp only [Arm, hh] at *; exact ⟨trivial, h⟩
  | again t hh hr => simp [Arm]
  | finish t hh hr =>
    have hn := hI.hwin t (by simp [hh, Hpc.inst?])
    rw [atLeast_eq hw hn] at hr
    have hlt : s.now < t := by simpa using hr
    simp only [Arm, hh] at h ⊢
    rcases h with ⟨h0, h | h | ⟨h1, h2⟩⟩
    · exact .inr (.inl (by simp [St.irq, h]))
    · exact .inr (.inr (.inl h))
    · rcases h2 with h2 | h2 | h2
      · omega
      · exact .inr (.inl h2)
      · exact .inr (.inr (.inr h2))
  | disable hh =>
    simp only [Arm, hh] at h ⊢
    rcases h with h | h | h
    · exact .inl h
    · exact .inr (.inl (by simp [St.irq, h]))
    · exact .inr (.inr (.inl h))
  | arm c t hh hc =>
    simp only [Arm, hh] at h ⊢
    refine ⟨h.1, ?_⟩
    rcases h with ⟨h0, h | h | h⟩
    · exact .inl h
    · exact .inr (.inl h)
    · refine .inr (.inr ⟨h, ?_⟩)
      by_cases hlt : s.now < t
      · rcases hc hlt with ⟨k1, k2⟩ | k
        · refine .inr (.inr ⟨h0, c, rfl, k1, ?_⟩)
          intro e he; have := h e he; omega
        · exact .inr (.inl k)
      · exact .inl (by omega)

theorem exec_induct {b : Cfg} {P : St → List Ev → Prop}
    (hstep : ∀ s tr a s' e, P s tr → step b s a = some (s', e) → P s' (tr ++ e)) :
    ∀ (as : List Act) (s : St) (tr : List Ev) (s' : St) (es : List Ev), P s tr →
      exec b s as = some (s', es) → P s' (tr ++ es)
  | [], s, tr, s', es, h, he => by cases he; simpa using h
  | a :: as, s, tr, s', es, h, he => by
    simp only [exec] at he
    split at he
    · cases he
    · rename_i s1 e hs
      split at he
      · cases he
      · rename_i s2 es' hs2
        cases he
        have := exec_induct hstep as s1 (tr ++ e) _ es' (hstep _ _ _ _ _ h hs) hs2
        simpa using this

theorem reach_induct {b : Cfg} {P : St → List Ev → Prop} (h0 : P (init b.noop) [])
    (hstep : ∀ s tr a s' e, P s tr → step b s a = some (s', e) → P s' (tr ++ e)) {s : St} {tr : List Ev}
    (h : Reach b s tr) : P s tr := by
  obtain ⟨as, he⟩ := h
  simpa using exec_induct hstep as (init b.noop) [] s tr h0 he

theorem Reach.step {b : Cfg} {s s' : St} {tr e : List Ev} {a : Act} (h : Reach b s tr) (hs : step b s a = some (s', e)) :
    Reach b s' (tr ++ e) := by
  obtain ⟨as, he⟩ := h
  refine ⟨as ++ [a], ?_⟩
  have : ∀ (as : List Act) (s0 : St) (tr0 : List Ev), exec b s0 as = some (s, tr0) → exec b s0 (as ++ [a]) = some (s', tr0 ++ e) := by
    intro as
    induction as with
    | nil => intro s0 tr0 h; cases h; simp [exec, hs]
    | cons c as ih =>
      intro s0 tr0 h
      simp only [exec] at h
      split at h
      · cases h
      · rename_i s1 e1 h1
        split at h
        · cases h
        · rename_i s2 es h2
          cases h
          simp [exec, h1, ih _ _ h2]
  exact this as (init b.noop) tr he

theorem reach_inv {b : Cfg} (hw : 0 < b.w) {s : St} {tr : List Ev} (h : Reach b s tr) : Inv b s ∧ Arm b s := by
  refine reach_induct (P := fun s _ => Inv b s ∧ Arm b s) ⟨inv_init b, by simp [Arm, init]⟩ ?_ h
  rintro s tr a s' e ⟨h1, h2⟩ hs
  exact ⟨inv_step hw h1 hs, arm_step hw h1 h2 hs⟩

end Verif.TimerQueue
