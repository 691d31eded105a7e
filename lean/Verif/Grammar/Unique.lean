import Verif.Grammar.App

/-!
# Tokens can be read in one way only
-/

namespace Verif.Grammar
open Verif.Analysis (Ident Access Map has)
open Verif.Signature (Attr Path Seg)

theorem CommaList.unique {α : Type} {item : List Tok → α → List Tok → Prop} (hu : ∀ {ts x r x' r'}, item ts x r → item ts x' r' → x = x' ∧ r = r')
    (hl : ∀ {ts x r}, item ts x r → r.length < ts.length) {ts xs xs'} (h : CommaList item ts xs) (h' : CommaList item ts xs') : xs = xs' := by
  induction h generalizing xs' with
  | nil =>
    cases h' with
    | nil => rfl
    | last h => exact absurd (hl h) (by simp)
    | cons h => exact absurd (hl h) (by simp)
  | last h =>
    cases h' with
    | nil => exact absurd (hl h) (by simp)
    | last h2 => rw [(hu h h2).1]
    | cons h2 => have := (hu h h2).2; cases this
  | cons h _ ih =>
    cases h' with
    | nil => exact absurd (hl h) (by simp)
    | last h2 => have := (hu h h2).2; cases this
    | cons h2 hr =>
      obtain ⟨e1, e2⟩ := hu h h2
      cases e2
      rw [e1, ih hr]

theorem StrictList.unique {α : Type} {item : List Tok → α → List Tok → Prop} (hu : ∀ {ts x r x' r'}, item ts x r → item ts x' r' → x = x' ∧ r = r')
    {ts xs xs'} (h : StrictList item ts xs) (h' : StrictList item ts xs') : xs = xs' := by
  induction h generalizing xs' with
  | last h =>
    cases h' with
    | last h2 => rw [(hu h h2).1]
    | cons h2 => have := (hu h h2).2; cases this
  | cons h _ ih =>
    cases h' with
    | last h2 => have := (hu h h2).2; cases this
    | cons h2 hr =>
      obtain ⟨e1, e2⟩ := hu h h2
      cases e2
      rw [e1, ih hr]

/-- without a comma at the end, both notions of a list coincide -/
theorem StrictList.comma {α : Type} {item : List Tok → α → List Tok → Prop} {ts xs} (h : StrictList item ts xs) : CommaList item ts xs := by
  induction h with
  | last h => exact .last h
  | cons h _ ih => exact .cons h ih

theorem sharedItem_unique {syn : Syn} {ts x r x' r'} (h : SharedItem syn ts x r) (h' : SharedItem syn ts x' r') : x = x' ∧ r = r' := by
  obtain ⟨e, h1, h2⟩ := (sharedItem_iff _ _ _ _).2 h
  obtain ⟨e', h1', h2'⟩ := (sharedItem_iff _ _ _ _).2 h'
  rw [h1] at h1'
  cases h1'
  rw [h2] at h2'
  exact ⟨Option.some.inj h2', rfl⟩

theorem sharedItem_lt {syn : Syn} {ts x r} (h : SharedItem syn ts x r) : r.length < ts.length := by
  obtain ⟨e, h1, -⟩ := (sharedItem_iff _ _ _ _).2 h
  exact syn.expr_lt h1

theorem dispatcherItem_unique {syn : Syn} {ts x r x' r'} (h : DispatcherItem syn ts x r) (h' : DispatcherItem syn ts x' r') : x = x' ∧ r = r' := by
  obtain ⟨e, h1, h2⟩ := (dispatcherItem_iff _ _ _ _).2 h
  obtain ⟨e', h1', h2'⟩ := (dispatcherItem_iff _ _ _ _).2 h'
  rw [h1] at h1'
  cases h1'
  rw [h2] at h2'
  exact ⟨Option.some.inj h2', rfl⟩

theorem dispatcherItem_lt {syn : Syn} {ts x r} (h : DispatcherItem syn ts x r) : r.length < ts.length := by
  obtain ⟨e, h1, -⟩ := (dispatcherItem_iff _ _ _ _).2 h
  exact syn.expr_lt h1

theorem localItem_unique {syn : Syn} {ts x r x' r'} (h : LocalItem syn ts x r) (h' : LocalItem syn ts x' r') : x = x' ∧ r = r' := by
  have h1 := (localEntry_iff _ _ _ _).2 h
  have h2 := (localEntry_iff _ _ _ _).2 h'
  rw [h1] at h2
  cases h2
  exact ⟨rfl, rfl⟩

theorem localList_unique {syn : Syn} {ts l l'} (h : LocalList syn ts l) (h' : LocalList syn ts l') : l = l' := by
  induction h generalizing l' with
  | nil =>
    cases h' with
    | nil => rfl
    | cons h => exact absurd (localItem_lt h) (by simp)
  | cons h _ ih =>
    cases h' with
    | nil => exact absurd (localItem_lt h) (by simp)
    | cons h2 hr =>
      obtain ⟨e1, e2⟩ := localItem_unique h h2
      cases e2
      rw [e1, ih hr]

theorem arg_unique {syn : Syn} {ts x r x' r'} (h : Arg syn ts x r) (h' : Arg syn ts x' r') : x = x' ∧ r = r' := by
  cases h with
  | binds => cases h'; exact ⟨rfl, rfl⟩
  | priority => cases h'; exact ⟨rfl, rfl⟩
  | shared h => cases h' with | shared h2 => rw [CommaList.unique (item := SharedItem syn) sharedItem_unique sharedItem_lt h h2]; exact ⟨rfl, rfl⟩
  | locals h => cases h' with | locals h2 => rw [localList_unique h h2]; exact ⟨rfl, rfl⟩
  | localTask h =>
    cases h' with
    | localTask => exact ⟨rfl, rfl⟩
    | localTaskValue => exact absurd rfl (h _)
  | localTaskValue =>
    cases h' with
    | localTask h => exact absurd rfl (h _)
    | localTaskValue => exact ⟨rfl, rfl⟩

theorem appItem_unique {syn : Syn} {clint ts x r x' r'} (h : AppItem syn clint ts x r) (h' : AppItem syn clint ts x' r') : x = x' ∧ r = r' := by
  cases h with
  | device h => cases h' with | device h2 => rw [h] at h2; cases h2; exact ⟨rfl, rfl⟩
  | core => cases h'; exact ⟨rfl, rfl⟩
  | peripherals => cases h'; exact ⟨rfl, rfl⟩
  | dispatchers h => cases h' with | dispatchers h2 => rw [CommaList.unique (item := DispatcherItem syn) dispatcherItem_unique dispatcherItem_lt h h2]; exact ⟨rfl, rfl⟩
  | backend h => cases h'; exact ⟨rfl, rfl⟩

end Verif.Grammar
