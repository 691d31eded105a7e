import Verif.WaitQueue.Props

/-!
# Clients of the intrusive wait queue (proof device)

`Own c fut wq lk`: the pointer structure `c` is the doubly linked list of the clients `wq` (oldest first); the link of client `i` lives in the memory of its future, at address `fut i` (`none`: client `i` has no
future); `lk i` is the content of the link (value and popped flag) if the `Option<Link>` is `Some`. All other memory holds no link.
-/

namespace Verif.Intrusive

open Verif.WaitQueue

variable {α : Type}

def fset {β : Type} (f : Nat → β) (i : Nat) (x : β) : Nat → β := fun j => if j = i then x else f j

@[simp] theorem fset_same {β : Type} (f : Nat → β) (i : Nat) (x : β) : fset f i x i = x := by simp [fset]
theorem fset_ne {β : Type} (f : Nat → β) {i j : Nat} (x : β) (h : j ≠ i) : fset f i x j = f j := by simp [fset, h]

structure Own (c : WQ α) (fut : Nat → Option Nat) (wq : List Nat) (lk : Nat → Option (α × Bool)) : Prop where
  rep : ∃ sp : Spec α, Rep c sp ∧ sp.q.map some = wq.map fut ∧ ∀ a, sp.links a = (c.mem a).map (fun l => (l.val, l.isPopped))
  inj : ∀ i j a, fut i = some a → fut j = some a → i = j
  mem : ∀ i a, fut i = some a → (c.mem a).map (fun l => (l.val, l.isPopped)) = lk i
  rest : ∀ a, (∀ i, fut i ≠ some a) → c.mem a = none
  live : ∀ i, lk i ≠ none → fut i ≠ none

theorem own_init : Own (WaitQueue.empty : WQ α) (fun _ => none) [] (fun _ => none) :=
  ⟨⟨Spec.empty, rep_empty, rfl, fun _ => rfl⟩, by simp, by simp, fun _ _ => rfl, by simp⟩

/-- the address of a waiting client -/
theorem Own.addr {c : WQ α} {fut wq lk} (h : Own c fut wq lk) {i : Nat} (hi : i ∈ wq) : ∃ a, fut i = some a := by
  obtain ⟨sp, -, hq, -⟩ := h.rep
  have : fut i ∈ sp.q.map some := by rw [hq]; exact List.mem_map_of_mem hi
  obtain ⟨a, -, ha⟩ := List.mem_map.1 this
  exact ⟨a, ha.symm⟩

theorem mem_iff {fut : Nat → Option Nat} (inj : ∀ i j a, fut i = some a → fut j = some a → i = j) {q wq : List Nat} (h : q.map some = wq.map fut) {i a : Nat} (ha : fut i = some a) : a ∈ q ↔ i ∈ wq := by
  have h1 : a ∈ q ↔ some a ∈ q.map some := by simp
  rw [h1, h, List.mem_map]
  constructor
  · rintro ⟨j, hj, he⟩; rw [inj i j a ha he]; exact hj
  · intro hi; exact ⟨i, hi, ha⟩

theorem erase_map {fut : Nat → Option Nat} (inj : ∀ i j a, fut i = some a → fut j = some a → i = j) {i a : Nat} (ha : fut i = some a) : ∀ {q wq : List Nat}, q.map some = wq.map fut → (q.erase a).map some = (wq.erase i).map fut := by
  intro q
  induction q with
  | nil => intro wq h; cases wq; rfl; cases h
  | cons x q ih =>
    intro wq h
    cases wq with
    | nil => cases h
    | cons j wq =>
      simp only [List.map_cons, List.cons.injEq] at h
      by_cases hx : x = a
      · subst hx
        have : j = i := inj j i x h.1.symm ha
        subst this
        simpa using h.2
      · have : j ≠ i := by rintro rfl; rw [ha] at h; exact hx (by simpa using h.1)
        rw [List.erase_cons_tail (by simpa using hx), List.erase_cons_tail (by simpa using this)]
        simp [h.1, ih h.2]

/-- a future comes into being, in memory not used by another one -/
theorem Own.alloc {c : WQ α} {fut wq lk} (h : Own c fut wq lk) {i a : Nat} (hn : fut i = none) (ha : ∀ j, fut j ≠ some a) : Own c (fset fut i (some a)) wq lk := by
  obtain ⟨⟨sp, hr, hq, hl⟩, h2, h3, h4, h5⟩ := h
  have hi : i ∉ wq := by
    intro hi
    have : fut i ∈ sp.q.map some := by rw [hq]; exact List.mem_map_of_mem hi
    rw [hn] at this; simp at this
  refine ⟨⟨sp, hr, ?_, hl⟩, ?_, ?_, ?_, ?_⟩
  · rw [hq]; exact List.map_congr_left fun j hj => (fset_ne _ _ (by rintro rfl; exact hi hj)).symm
  · intro j k b hj hk; simp only [fset] at hj hk; grind
  · intro j b hj
    by_cases e : j = i
    · subst e
      simp at hj; subst hj
      have : lk j = none := by cases hh : lk j; rfl; exact absurd hn (h5 j (by simp [hh]))
      rw [this, h4 a ha]; rfl
    · rw [fset_ne _ _ e] at hj; exact h3 j b hj
  · intro b hb
    refine h4 b fun j hj => ?_
    by_cases e : j = i
    · subst e; rw [hn] at hj; cases hj
    · exact hb j (by rw [fset_ne _ _ e]; exact hj)
  · intro j hj
    by_cases e : j = i
    · subst e; simp
    · rw [fset_ne _ _ e]; exact h5 j hj

/-- the memory of a future whose link is not in use any more is released -/
theorem Own.release {c : WQ α} {fut wq lk} (h : Own c fut wq lk) {i : Nat} (hl0 : lk i = none) (hi : i ∉ wq) : Own c (fset fut i none) wq lk := by
  obtain ⟨⟨sp, hr, hq, hl⟩, h2, h3, h4, h5⟩ := h
  refine ⟨⟨sp, hr, ?_, hl⟩, ?_, ?_, ?_, ?_⟩
  · rw [hq]; exact List.map_congr_left fun j hj => (fset_ne _ _ (by rintro rfl; exact hi hj)).symm
  · intro j k b hj hk; simp only [fset] at hj hk; grind
  · intro j b hj
    by_cases e : j = i
    · subst e; simp at hj
    · rw [fset_ne _ _ e] at hj; exact h3 j b hj
  · intro b hb
    by_cases e : ∃ j, fut j = some b
    · obtain ⟨j, hj⟩ := e
      by_cases e' : j = i
      · subst e'
        have := h3 j b hj
        rw [hl0] at this
        simpa using this
      · exact absurd hj (by have := hb j; rwa [fset_ne _ _ e'] at this)
    · exact h4 b (by simpa using e)
  · intro j hj
    by_cases e : j = i
    · subst e; exact absurd hl0 hj
    · rw [fset_ne _ _ e]; exact h5 j hj

/-- the `Option<Link>` of a client that is not in the queue becomes `None` -/
theorem Own.take {c : WQ α} {fut wq lk} (h : Own c fut wq lk) {i a : Nat} (ha : fut i = some a) (hi : i ∉ wq) : Own (c.free a) fut wq (fset lk i none) := by
  obtain ⟨⟨sp, hr, hq, hl⟩, h2, h3, h4, h5⟩ := h
  have hna : a ∉ sp.q := fun h => hi ((mem_iff h2 hq ha).1 h)
  refine ⟨⟨_, rep_free hr hna, hq, ?_⟩, h2, ?_, ?_, ?_⟩
  · intro b
    by_cases e : b = a
    · subst e; simp [Spec.set, WQ.free, upd]
    · simp [Spec.set, WQ.free, upd, e, hl]
  · intro j b hj
    by_cases e : j = i
    · subst e
      have : b = a := by rw [ha] at hj; exact (by simpa using hj.symm)
      subst this
      simp [WQ.free, upd]
    · have : b ≠ a := by rintro rfl; exact e (h2 _ _ _ hj ha)
      simp [WQ.free, upd, this, fset_ne _ _ e, h3 j b hj]
  · intro b hb
    have : b ≠ a := by rintro rfl; exact hb i ha
    simp [WQ.free, upd, this, h4 b hb]
  · intro j hj
    by_cases e : j = i
    · subst e; simp at hj
    · rw [fset_ne _ _ e] at hj; exact h5 j hj

/-- a link is created in the memory of its future and pushed -/
theorem Own.push {c : WQ α} {fut wq lk} (h : Own c fut wq lk) {i a : Nat} (ha : fut i = some a) (hi : i ∉ wq) (v : α) :
    ∃ c', (c.newLink a v).push a = some c' ∧ Own c' fut (wq ++ [i]) (fset lk i (some (v, false))) := by
  obtain ⟨⟨sp, hr, hq, hl⟩, h2, h3, h4, h5⟩ := h
  have hna : a ∉ sp.q := fun h => hi ((mem_iff h2 hq ha).1 h)
  have hr1 := rep_newLink hr hna v
  obtain ⟨c', hc, hr2⟩ := rep_push (a := a) (v := v) hr1 (by simp [Spec.set]) hna
  refine ⟨c', hc, ⟨_, hr2, by simp [hq, ha], fun b => (hr2.links b).symm⟩, h2, ?_, ?_, ?_⟩
  · intro j b hj
    rw [hr2.links b]
    by_cases e : j = i
    · subst e
      have : b = a := by rw [ha] at hj; exact (by simpa using hj.symm)
      subst this
      simp [Spec.set]
    · have : b ≠ a := by rintro rfl; exact e (h2 _ _ _ hj ha)
      simp only [Spec.set, this, if_false, fset_ne _ _ e]
      rw [hl, h3 j b hj]
  · intro b hb
    have hne : b ≠ a := by rintro rfl; exact hb i ha
    have := hr2.links b
    simp only [Spec.set, hne, if_false] at this
    rw [hl, h4 b hb] at this
    simpa using this
  · intro j hj
    by_cases e : j = i
    · subst e; rw [ha]; simp
    · rw [fset_ne _ _ e] at hj; exact h5 j hj

/-- the oldest waiting client is popped -/
theorem Own.pop {c : WQ α} {fut lk} {j : Nat} {q : List Nat} (h : Own c fut (j :: q) lk) :
    ∃ c' v, lk j = some (v, false) ∧ c.pop = some (c', some v) ∧ Own c' fut q (fset lk j (some (v, true))) := by
  obtain ⟨a, ha⟩ := h.addr (List.mem_cons_self ..)
  obtain ⟨⟨sp, hr, hq, hl⟩, h2, h3, h4, h5⟩ := h
  obtain ⟨x, q', hxq⟩ : ∃ x q', sp.q = x :: q' := by cases hs : sp.q with | nil => rw [hs] at hq; cases hq | cons x q' => exact ⟨x, q', rfl⟩
  have hq' := hq
  rw [hxq] at hq'
  simp only [List.map_cons, List.cons.injEq] at hq'
  have hxa : x = a := by rw [ha] at hq'; simpa using hq'.1
  subst hxa
  obtain ⟨c', v, hv, hc, hr2⟩ := rep_pop_cons hr hxq
  refine ⟨c', v, by rw [← h3 j x ha, ← hl, hv], hc, ⟨_, hr2, hq'.2, fun b => (hr2.links b).symm⟩, h2, ?_, ?_, ?_⟩
  · intro k b hk
    rw [hr2.links b]
    by_cases e : k = j
    · subst e
      have : b = x := by rw [ha] at hk; exact (by simpa using hk.symm)
      subst this
      simp [Spec.set]
    · have : b ≠ x := by rintro rfl; exact e (h2 _ _ _ hk ha)
      simp only [Spec.set, this, if_false, fset_ne _ _ e]
      rw [hl, h3 k b hk]
  · intro b hb
    have hne : b ≠ x := by rintro rfl; exact hb j ha
    have := hr2.links b
    simp only [Spec.set, hne, if_false] at this
    rw [hl, h4 b hb] at this
    simpa using this
  · intro k hk
    by_cases e : k = j
    · subst e; rw [ha]; simp
    · rw [fset_ne _ _ e] at hk; exact h5 k hk

theorem Own.head {c : WQ α} {fut wq lk} (h : Own c fut wq lk) : c.head = none ↔ wq = [] := by
  obtain ⟨⟨sp, hr, hq, hl⟩, -⟩ := h
  rw [hr.head, nextOf_none_iff]
  constructor
  · intro e; rw [e] at hq; simpa using hq.symm
  · intro e; subst e; simpa using hq

theorem Own.isEmpty {c : WQ α} {fut wq lk} (h : Own c fut wq lk) : c.isEmpty = decide (wq = []) := by
  have := h.head
  unfold WQ.isEmpty
  cases hh : c.head with
  | none => simp [this.1 hh]
  | some x => rw [hh] at this; simp at this ⊢; exact this

theorem Own.popNil {c : WQ α} {fut lk} (h : Own c fut [] lk) : c.pop = some (c, none) := by
  have := h.head.2 rfl
  simp [WQ.pop, this]

/-- a link is removed, wherever it is, and its `Option<Link>` is not used any more -/
theorem Own.remove {c : WQ α} {fut wq lk} (h : Own c fut wq lk) {i a : Nat} {x : α × Bool} (ha : fut i = some a) (hx : lk i = some x) (hnd : wq.Nodup) :
    ∃ c', c.remove a = some c' ∧ Own c' fut (wq.erase i) (fset lk i (some (x.1, true))) := by
  obtain ⟨⟨sp, hr, hq, hl⟩, h2, h3, h4, h5⟩ := h
  have hla : sp.links a = some (x.1, x.2) := by rw [hl, h3 i a ha, hx]
  obtain ⟨c', hc, hr2⟩ := rep_remove hr hla
  refine ⟨c', hc, ⟨_, hr2, erase_map h2 ha hq, fun b => (hr2.links b).symm⟩, h2, ?_, ?_, ?_⟩
  · intro k b hk
    rw [hr2.links b]
    by_cases e : k = i
    · subst e
      have : b = a := by rw [ha] at hk; exact (by simpa using hk.symm)
      subst this
      simp [Spec.set]
    · have : b ≠ a := by rintro rfl; exact e (h2 _ _ _ hk ha)
      simp only [Spec.set, this, if_false, fset_ne _ _ e]
      rw [hl, h3 k b hk]
  · intro b hb
    have hne : b ≠ a := by rintro rfl; exact hb i ha
    have := hr2.links b
    simp only [Spec.set, hne, if_false] at this
    rw [hl, h4 b hb] at this
    simpa using this
  · intro k hk
    by_cases e : k = i
    · subst e; rw [ha]; simp
    · rw [fset_ne _ _ e] at hk; exact h5 k hk

/-- reading the `Option<Link>` of a client -/
theorem Own.read {c : WQ α} {fut wq lk} (h : Own c fut wq lk) {i a : Nat} (ha : fut i = some a) :
    (lk i = none → c.mem a = none) ∧ ∀ v b, lk i = some (v, b) → ∃ l, c.mem a = some l ∧ l.val = v ∧ l.isPopped = b := by
  have := h.mem i a ha
  constructor
  · intro e; rw [e] at this; simpa using this
  · intro v b e
    rw [e] at this
    obtain ⟨l, h1, h2⟩ := Option.map_eq_some_iff.1 this
    simp only [Prod.mk.injEq] at h2
    exact ⟨l, h1, h2.1, h2.2⟩

/-- the observable form: a consistent doubly linked list of the links of the waiting futures -/
theorem Own.linked {c : WQ α} {fut wq lk} (h : Own c fut wq lk) : ∃ as, as.map some = wq.map fut ∧ Linked c as := by
  obtain ⟨⟨sp, hr, hq, -⟩, -⟩ := h
  exact ⟨sp.q, hq, hr.linked⟩

end Verif.Intrusive
