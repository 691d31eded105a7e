import Verif.Grammar.Unique

/-!
# The documented forms are read as documented
-/

namespace Verif.Grammar
open Verif.Analysis (Ident Access Map has)

theorem Joined.commaList {α : Type} {w : List Tok → α → Prop} {item : List Tok → α → List Tok → Prop} (h : ∀ t x r, w t x → Ends r → item (t ++ r) x r) {ts xs}
    (hj : Joined w ts xs) : CommaList item ts xs := by
  induction hj with
  | nil => exact .nil
  | last hw => have := h _ _ [] hw (.inl rfl); rw [List.append_nil] at this; exact .last this
  | cons hw _ ih => exact .cons (h _ _ _ hw (.inr ⟨_, rfl⟩)) ih

theorem JoinedStrict.strictList {α : Type} {w : List Tok → α → Prop} {item : List Tok → α → List Tok → Prop} (h : ∀ t x r, w t x → Ends r → item (t ++ r) x r) {ts xs}
    (hj : JoinedStrict w ts xs) : StrictList item ts xs := by
  induction hj with
  | last hw => have := h _ _ [] hw (.inl rfl); rw [List.append_nil] at this; exact .last this
  | cons hw _ ih => exact .cons (h _ _ _ hw (.inr ⟨_, rfl⟩)) ih

theorem writesShared_item {syn : Syn} (hp : Plain syn) : ∀ t x r, WritesShared t x → Ends r → SharedItem syn (t ++ r) x r := by
  intro t x r hw hr
  cases hw with
  | exclusive => exact .exclusive (hp.expr _ _ hr)
  | shared => exact .shared (hp.reference _ _ hr)

theorem writesLocal_entry {syn : Syn} (hp : Plain syn) {t x} (hw : WritesLocal syn t x) : LocalItem syn t x [] ∧ ∀ r, LocalItem syn (t ++ .comma :: r) x r := by
  cases hw with
  | external => exact ⟨.last (hp.exprPath _ _ (.inl (.inl rfl))), fun r => .external (hp.exprPath _ _ (.inl (.inr ⟨r, rfl⟩))) .nil⟩
  | declared h1 h2 h3 =>
    rename_i i t ty e x
    refine ⟨?_, fun r => ?_⟩
    · refine .declared (hp.exprPath _ _ (.inr ⟨_, rfl⟩)) (h1 _) h2 ?_ (by intro r hr; cases hr) .nil
      have := h3 [] (.inl rfl)
      rwa [List.append_nil] at this
    · refine .declaredComma (r₁ := t ++ .eq :: (e ++ .comma :: r)) ?_ (h1 _) h2 (h3 _ (.inr ⟨r, rfl⟩)) .nil
      have := hp.exprPath i (.colon :: (t ++ .eq :: (e ++ .comma :: r))) (.inr ⟨_, rfl⟩)
      simpa using this

theorem writesLocal_list {syn : Syn} (hp : Plain syn) {ts l} (h : Joined (WritesLocal syn) ts l) : LocalList syn ts l := by
  induction h with
  | nil => exact .nil
  | last hw => exact .cons (writesLocal_entry hp hw).1 .nil
  | cons hw _ ih => exact .cons ((writesLocal_entry hp hw).2 _) ih

theorem writesArg_arg {syn : Syn} (hp : Plain syn) : ∀ t x r, WritesArg syn t x → Ends r → Arg syn (t ++ r) x r := by
  intro t x r hw hr
  cases hw with
  | binds => exact .binds
  | priority => exact .priority
  | shared h => exact .shared (h.commaList (writesShared_item hp))
  | locals h => exact .locals (writesLocal_list hp h)
  | localTask =>
    refine .localTask ?_
    rintro r' rfl
    rcases hr with h | ⟨_, h⟩ <;> cases h
  | localTaskValue => exact .localTaskValue

theorem writesApp_item {syn : Syn} (hp : Plain syn) {clint} : ∀ t x r, WritesApp syn clint t x → Ends r → AppItem syn clint (t ++ r) x r := by
  intro t x r hw hr
  cases hw with
  | device h => exact .device (h r hr)
  | core => exact .core
  | peripherals => exact .peripherals
  | dispatchers h =>
    refine .dispatchers (h.commaList ?_)
    rintro t ⟨i, as⟩ r ⟨rfl, h2⟩ hr
    simp only at h2
    subst h2
    exact .mk (hp.expr _ _ hr)
  | backend h => exact .backend h

end Verif.Grammar
