import Verif.Front.Lemmas

/-!
# From tokens to arguments: the module
-/

namespace Verif.Front
open Verif.Analysis (Ident Res Err err Map Item SharedRes bind_ok bind_eq)
open Verif.Signature (Path Attr Fn Field Abi Ty SItem FItem Kw.init Kw.idle Kw.task Kw.shared Kw.locals SSt Def attrEq foldl_cons synItem parseSharedRes parseLocalRes)
open Verif.Grammar (Syn Tok)

/-- the functions of an `extern` block with their arguments read -/
inductive ElabForeign (syn : Syn) : List TFItem → List FItem → Prop
  | nil : ElabForeign syn [] []
  | fn {f f' l l'} : Elab syn f f' → ElabForeign syn l l' → ElabForeign syn (.fn f :: l) (.fn f' :: l')
  | other {l l'} : ElabForeign syn l l' → ElabForeign syn (.other :: l) (.other :: l')

inductive ElabItem (syn : Syn) : TItem → SItem → Prop
  | fn {f f'} : Elab syn f f' → ElabItem syn (.fn f) (.fn f')
  | struct {attrs name fields} : ElabItem syn (.struct attrs name fields) (.struct (attrs.map TAttr.bare) name (fields.map fun fs => fs.map TField.read))
  | foreign {abi l l'} : ElabForeign syn l l' → ElabItem syn (.foreign abi l) (.foreign abi l')
  | other : ElabItem syn .other .other

inductive ElabAll (syn : Syn) : List TItem → List SItem → Prop
  | nil : ElabAll syn [] []
  | cons {i i' l l'} : ElabItem syn i i' → ElabAll syn l l' → ElabAll syn (i :: l) (i' :: l')

section
variable {syn : Syn} {code : Ty → Analysis.Ty}

theorem foreign_elab {l : List TFItem} {s s' : SSt} : l.foldlM (foreignItem syn code) s = .ok s' ↔ ∃ l', ElabForeign syn l l' ∧ l'.foldlM (Signature.foreignItem code) s = .ok s' := by
  induction l generalizing s with
  | nil =>
    constructor
    · intro h; exact ⟨[], .nil, h⟩
    · rintro ⟨_, ⟨⟩, h⟩; exact h
  | cons x l ih =>
    constructor
    · intro h
      obtain ⟨s1, h1, h2⟩ := foldl_cons.1 h
      obtain ⟨l', hl, h3⟩ := ih.1 h2
      cases x with
      | fn f =>
        obtain ⟨f', he, hf⟩ := fnItem_elab h1
        exact ⟨_, .fn he hl, foldl_cons.2 ⟨s1, hf, h3⟩⟩
      | other => cases h1
    · rintro ⟨_, he, h⟩
      cases he with
      | fn he hl =>
        obtain ⟨s1, h1, h2⟩ := foldl_cons.1 h
        exact foldl_cons.2 ⟨s1, elab_fnItem he h1, ih.2 ⟨_, hl, h2⟩⟩
      | other hl =>
        obtain ⟨s1, h1, h2⟩ := foldl_cons.1 h
        cases h1

theorem any_bare (attrs : List TAttr) (n : Ident) : (attrs.map TAttr.bare).any (attrEq · n) = attrs.any (·.is n) := by
  rw [List.any_map]; rfl

theorem struct_elab (s : SSt) (attrs : List TAttr) (name : Ident) (fields : Option (List TField)) :
    synItem code s (.struct (attrs.map TAttr.bare) name (fields.map fun fs => fs.map TField.read)) = item syn code s (.struct attrs name fields) := by
  simp only [synItem, item, any_bare]
  cases fields with
  | none => rfl
  | some fs => simp only [Option.map_some, List.map_map]; rfl

theorem item_elab {i : TItem} {s s' : SSt} : item syn code s i = .ok s' ↔ ∃ i', ElabItem syn i i' ∧ synItem code s i' = .ok s' := by
  cases i with
  | fn f =>
    constructor
    · intro h
      obtain ⟨f', he, hf⟩ := fnItem_elab h
      exact ⟨_, .fn he, hf⟩
    · rintro ⟨_, ⟨he⟩, h⟩
      exact elab_fnItem he h
  | struct attrs name fields =>
    constructor
    · intro h
      exact ⟨_, .struct, (struct_elab s attrs name fields).trans h⟩
    · rintro ⟨_, he, h⟩
      cases he
      exact (struct_elab s attrs name fields).symm.trans h
  | foreign abi l =>
    constructor
    · intro h
      simp only [item] at h
      split at h
      · next ha =>
        obtain ⟨l', hl, h'⟩ := foreign_elab.1 h
        refine ⟨_, .foreign hl, ?_⟩
        simp only [synItem, if_pos ha]; exact h'
      · cases h
    · rintro ⟨_, he, h⟩
      cases he with | foreign hl =>
      simp only [synItem] at h
      split at h
      · next ha =>
        simp only [item, if_pos ha]
        exact foreign_elab.2 ⟨_, hl, h⟩
      · cases h
  | other =>
    constructor
    · intro h; exact ⟨_, .other, h⟩
    · rintro ⟨_, ⟨⟩, h⟩; exact h

theorem items_elab {l : List TItem} {s s' : SSt} : l.foldlM (item syn code) s = .ok s' ↔ ∃ l', ElabAll syn l l' ∧ l'.foldlM (synItem code) s = .ok s' := by
  induction l generalizing s with
  | nil =>
    constructor
    · intro h; exact ⟨[], .nil, h⟩
    · rintro ⟨_, ⟨⟩, h⟩; exact h
  | cons x l ih =>
    constructor
    · intro h
      obtain ⟨s1, h1, h2⟩ := foldl_cons.1 h
      obtain ⟨l', hl, h3⟩ := ih.1 h2
      obtain ⟨i', hi, h4⟩ := item_elab.1 h1
      exact ⟨_, .cons hi hl, foldl_cons.2 ⟨s1, h4, h3⟩⟩
    · rintro ⟨_, he, h⟩
      cases he with | cons hi hl =>
      obtain ⟨s1, h1, h2⟩ := foldl_cons.1 h
      exact foldl_cons.2 ⟨s1, item_elab.2 ⟨_, hi, h1⟩, ih.2 ⟨_, hl, h2⟩⟩

/-! ## the specification -/

theorem readsForeign_iff {l : List TFItem} {is : List Item} : ReadsForeign syn code l is ↔ ∃ l', ElabForeign syn l l' ∧ Signature.ReadsForeign code l' is := by
  induction l generalizing is with
  | nil =>
    constructor
    · rintro ⟨⟩; exact ⟨[], .nil, .nil⟩
    · rintro ⟨_, ⟨⟩, ⟨⟩⟩; exact .nil
  | cons x l ih =>
    constructor
    · rintro (_ | ⟨hf, hl⟩)
      obtain ⟨f', he, hr⟩ := readsFn_iff.1 hf
      obtain ⟨l', hl', hr'⟩ := ih.1 hl
      exact ⟨_, .fn he hl', .cons hr hr'⟩
    · rintro ⟨_, he, hr⟩
      cases he with
      | fn he hl =>
        cases hr with
        | cons hr hr' => exact .cons (readsFn_iff.2 ⟨_, he, hr⟩) (ih.2 ⟨_, hl, hr'⟩)
      | other hl => cases hr

theorem readsField_iff {f : TField} {r : Ident × SharedRes} : ReadsField code f r ↔ Signature.ReadsField code f.read r := by
  have : (∃ a ∈ f.attrs.map TAttr.bare, Signature.IsAttr Signature.Kw.lockFree a) ↔ ∃ a ∈ f.attrs, Signature.IsAttr Signature.Kw.lockFree a.bare := by
    constructor
    · rintro ⟨a, ha, h⟩
      obtain ⟨b, hb, rfl⟩ := List.mem_map.1 ha
      exact ⟨b, hb, h⟩
    · rintro ⟨b, hb, h⟩
      exact ⟨_, List.mem_map.2 ⟨b, hb, rfl⟩, h⟩
  unfold ReadsField Signature.ReadsField TField.read
  rw [this]

theorem readsFields_iff {fs : List TField} {rs : List (Ident × SharedRes)} : ReadsFields code fs rs ↔ Signature.ReadsFields code (fs.map TField.read) rs := by
  constructor
  · intro h
    induction h with
    | nil => exact .nil
    | cons h _ ih => exact .cons (readsField_iff.1 h) ih
  · intro h
    induction fs generalizing rs with
    | nil => cases h; exact .nil
    | cons f fs ih =>
      cases h with
      | cons h hs => exact .cons (readsField_iff.2 h) (ih hs)

theorem readsItem_iff {i : TItem} {is : List Item} : ReadsItem syn code i is ↔ ∃ i', ElabItem syn i i' ∧ Signature.ReadsItem code i' is := by
  constructor
  · intro h
    cases h with
    | fn hf =>
      obtain ⟨f', he, hr⟩ := readsFn_iff.1 hf
      exact ⟨_, .fn he, .fn hr⟩
    | shared ha hf => exact ⟨_, .struct, .shared (fun h => ha (unmarked_bare.1 h)) (readsFields_iff.1 hf)⟩
    | @locals attrs name fs ha hl =>
      refine ⟨_, .struct, ?_⟩
      have := Signature.ReadsItem.locals (code := code) (name := name) (fs := fs.map TField.read) (unmarked_bare.2 ha) (fun h => hl (unmarked_bare.1 h))
      rw [List.map_map] at this
      exact this
    | struct ha hl => exact ⟨_, .struct, .struct (unmarked_bare.2 ha) (unmarked_bare.2 hl)⟩
    | foreign ha hf =>
      obtain ⟨l', hl', hr'⟩ := readsForeign_iff.1 hf
      exact ⟨_, .foreign hl', .foreign ha hr'⟩
    | other => exact ⟨_, .other, .other⟩
  · rintro ⟨_, he, hr⟩
    cases he with
    | fn he => cases hr with | fn hr => exact .fn (readsFn_iff.2 ⟨_, he, hr⟩)
    | @struct attrs name fields =>
      cases fields with
      | none =>
        cases hr with
        | struct ha hl => exact .struct (unmarked_bare.1 ha) (unmarked_bare.1 hl)
      | some fs =>
        cases hr with
        | shared ha hf => exact .shared (fun h => ha (unmarked_bare.2 h)) (readsFields_iff.2 hf)
        | locals ha hl =>
          rw [List.map_map]
          exact .locals (unmarked_bare.1 ha) (fun h => hl (unmarked_bare.2 h))
        | struct ha hl => exact .struct (unmarked_bare.1 ha) (unmarked_bare.1 hl)
    | foreign hl => cases hr with | foreign ha hf => exact .foreign ha (readsForeign_iff.2 ⟨_, hl, hf⟩)
    | other => cases hr; exact .other

theorem reads_iff {l : List TItem} {is : List Item} : Reads syn code l is ↔ ∃ l', ElabAll syn l l' ∧ Signature.Reads code l' is := by
  induction l generalizing is with
  | nil =>
    constructor
    · rintro ⟨⟩; exact ⟨[], .nil, .nil⟩
    · rintro ⟨_, ⟨⟩, ⟨⟩⟩; exact .nil
  | cons x l ih =>
    constructor
    · rintro (_ | ⟨hi, hl⟩)
      obtain ⟨i', he, hr⟩ := readsItem_iff.1 hi
      obtain ⟨l', hl', hr'⟩ := ih.1 hl
      exact ⟨_, .cons he hl', .cons hr hr'⟩
    · rintro ⟨_, he, hr⟩
      cases he with | cons he hl =>
      cases hr with
      | cons hr hr' => exact .cons (readsItem_iff.2 ⟨_, he, hr⟩) (ih.2 ⟨_, hl, hr'⟩)

end

/-! ## the macro -/

theorem parseApp_elab {syn : Syn} {clint : Bool} {code : Ty → Analysis.Ty} {args : List Tok} {items : List TItem} {a : Grammar.AppArgs} {app : Analysis.App} {defs : List Def} :
    parseApp syn clint code args items = .ok (a, app, defs) ↔
      Grammar.appArgs syn clint args = some a ∧ ∃ l', ElabAll syn items l' ∧ Signature.parseApp code (a.dispatchers.map Prod.fst) l' = .ok (app, defs) := by
  constructor
  · intro h
    obtain ⟨a', h1, h⟩ := bind_ok h
    obtain ⟨s, h2, h⟩ := bind_ok h
    obtain ⟨app', h3, h⟩ := bind_ok h
    cases h
    rw [orErr_ok] at h1
    obtain ⟨as, -, hm⟩ := (Grammar.C100_app_arguments _ _ _ _).1 h1
    obtain ⟨l', hl, h4⟩ := items_elab.1 h2
    refine ⟨h1, l', hl, ?_⟩
    unfold Signature.parseApp
    rw [bind_eq (Analysis.parseDispatchers_nodup hm.distinct), bind_eq h4, bind_eq h3]; rfl
  · rintro ⟨h1, l', hl, h⟩
    obtain ⟨as, -, hm⟩ := (Grammar.C100_app_arguments _ _ _ _).1 h1
    unfold Signature.parseApp at h
    rw [bind_eq (Analysis.parseDispatchers_nodup hm.distinct)] at h
    obtain ⟨s, h2, h⟩ := bind_ok h
    obtain ⟨app', h3, h⟩ := bind_ok h
    cases h
    unfold parseApp
    rw [bind_eq (orErr_ok.2 h1), bind_eq (items_elab.2 ⟨_, hl, h2⟩), bind_eq h3]; rfl

theorem expandApp_elab {syn : Syn} {code : Ty → Analysis.Ty} {tg : Analysis.Target} {bits : Nat} {args : List Tok} {items : List TItem} {a : Grammar.AppArgs} {p : Analysis.Program}
    {defs : List Def} :
    expandApp syn code tg bits args items = .ok (p, a, defs) ↔
      Grammar.appArgs syn false args = some a ∧ ∃ l', ElabAll syn items l' ∧ Signature.expandApp code tg bits (a.dispatchers.map Prod.fst) l' = .ok (p, defs) := by
  constructor
  · intro h
    obtain ⟨⟨a', app, defs'⟩, h1, h⟩ := bind_ok h
    simp only at h
    obtain ⟨u, h2, h⟩ := bind_ok h
    obtain ⟨base, h3, h⟩ := bind_ok h
    obtain ⟨u', h4, h⟩ := bind_ok h
    obtain ⟨an, h5, h⟩ := bind_ok h
    obtain ⟨p', h6, h⟩ := bind_ok h
    split at h
    · next hf =>
      cases h
      obtain ⟨ha, l', hl, hp⟩ := parseApp_elab.1 h1
      refine ⟨ha, l', hl, ?_⟩
      unfold Signature.expandApp
      rw [bind_eq hp]
      simp only
      rw [bind_eq h2, bind_eq h3, bind_eq h4, bind_eq h5, bind_eq h6, if_pos hf]; rfl
    · cases h
  · rintro ⟨ha, l', hl, h⟩
    obtain ⟨⟨app, defs'⟩, h1, h⟩ := bind_ok h
    simp only at h
    obtain ⟨u, h2, h⟩ := bind_ok h
    obtain ⟨base, h3, h⟩ := bind_ok h
    obtain ⟨u', h4, h⟩ := bind_ok h
    obtain ⟨an, h5, h⟩ := bind_ok h
    obtain ⟨p', h6, h⟩ := bind_ok h
    split at h
    · next hf =>
      cases h
      unfold expandApp
      rw [bind_eq (parseApp_elab.2 ⟨ha, l', hl, h1⟩)]
      simp only
      rw [bind_eq h2, bind_eq h3, bind_eq h4, bind_eq h5, bind_eq h6, if_pos hf]; rfl
    · cases h

end Verif.Front
