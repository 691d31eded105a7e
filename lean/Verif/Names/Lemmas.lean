import Verif.Names.Model
import Verif.Analysis.AcceptProps
import Verif.EndToEnd.Props

/-! # Lemmas about names -/

namespace Verif.Names

open Verif.Analysis

/-- two ways to split a text at an underscore -/
theorem split_underscore {x a y b : Text} (h : x ++ '_' :: a = y ++ '_' :: b) :
    x = y ∧ a = b ∨ (∃ c, y = x ++ '_' :: c ∧ a = c ++ '_' :: b) ∨ ∃ c, x = y ++ '_' :: c ∧ b = c ++ '_' :: a := by
  rcases List.append_eq_append_iff.mp h with ⟨c, h1, h2⟩ | ⟨c, h1, h2⟩
  · cases c with
    | nil =>
      simp only [List.append_nil, List.nil_append, List.cons.injEq, true_and] at h1 h2
      exact .inl ⟨h1.symm, h2⟩
    | cons d c =>
      simp only [List.cons_append, List.cons.injEq] at h2
      obtain ⟨rfl, h2⟩ := h2
      exact .inr (.inl ⟨c, h1, h2⟩)
  · cases c with
    | nil =>
      simp only [List.append_nil, List.nil_append, List.cons.injEq, true_and] at h1 h2
      exact .inl ⟨h1, h2.symm⟩
    | cons d c =>
      simp only [List.cons_append, List.cons.injEq] at h2
      obtain ⟨rfl, h2⟩ := h2
      exact .inr (.inr ⟨c, h1, h2⟩)

/-- no underscore on the right of the split -/
theorem split_right {x a y b : Text} (h : x ++ '_' :: a = y ++ '_' :: b) (hb : '_' ∉ b) : x = y ∧ a = b ∨ Extends x y := by
  rcases split_underscore h with h | ⟨c, h, -⟩ | ⟨c, -, h⟩
  · exact .inl h
  · exact .inr ⟨c, h⟩
  · subst h; simp at hb

/-- what a definition is for -/
def Genuine (raw : Raw) : Def → Prop
  | .fn t | .module t | .context t | .sharedStruct t | .localStruct t => t ∈ raw.functions
  | .userStruct i => StructName raw i
  | .handler v => Vector raw v
  | .exec t | .spawn t | .waker t | .localSpawner t => ∃ q args, TaskIs raw t .software q args
  | .declaredStatic t r => DeclaresLocal raw t r
  | .localStatic r => ∃ ty, LocalField raw r ty
  | .main | .asyncMax | .rtErr | .sharedMod | .sharedStatic _ | .zeroDispatcher => True

theorem name_ne {txt : Ident → Text} {raw : Raw} (hp : Plain txt raw) {i : Ident} (hi : i ∈ raw.functions ∨ StructName raw i ∨ Vector raw i) (c : Text) :
    txt i ≠ internal ++ c := fun h => (hp.reserved i hi).1 ⟨c, h.symm⟩

/-- what comes after the prefix of internal names -/
def body (txt : Ident → Text) : Def → Option Text
  | .fn _ | .module _ | .userStruct _ | .handler _ | .main | .asyncMax | .rtErr | .sharedMod => none
  | .context t => some (txt t ++ "_Context".toList)
  | .sharedStatic r => some ("shared_resource_".toList ++ txt r)
  | .localStatic r => some ("local_resource_".toList ++ txt r)
  | .declaredStatic t r => some ("local_".toList ++ txt t ++ "_".toList ++ txt r)
  | .exec t => some (txt t ++ "_EXEC".toList)
  | .spawn t => some (txt t ++ "_spawn".toList)
  | .waker t => some (txt t ++ "_waker".toList)
  | .localSpawner t => some (txt t ++ "_LocalSpawner".toList)
  | .zeroDispatcher => some "async_0_prio_dispatcher".toList
  | .sharedStruct t => some (txt t ++ "SharedResources".toList)
  | .localStruct t => some (txt t ++ "LocalResources".toList)

theorem name_of_body {txt : Ident → Text} {d : Def} {c : Text} (h : body txt d = some c) : d.name txt = internal ++ c := by
  cases d <;> cases h <;> rfl

theorem not_internal {txt : Ident → Text} {raw : Raw} (hp : Plain txt raw) {d : Def} (hd : Genuine raw d) (h : body txt d = none) (c : Text) : d.name txt ≠ internal ++ c := by
  have hr : ∀ s ∈ reservedNames, s ≠ internal ++ c := by
    intro s hs
    simp only [reservedNames, List.mem_cons, List.not_mem_nil, or_false] at hs
    rcases hs with rfl | rfl | rfl | rfl <;> unfold internal <;> simp
  cases d <;> first | (cases h; done) | skip
  · exact name_ne hp (.inl hd) c
  · exact name_ne hp (.inl hd) c
  · exact name_ne hp (.inr (.inl hd)) c
  · exact name_ne hp (.inr (.inr hd)) c
  · exact hr _ (.head _)
  · exact hr _ (.tail _ (.head _))
  · exact hr _ (.tail _ (.tail _ (.tail _ (.head _))))
  · exact hr _ (.tail _ (.tail _ (.head _)))

theorem not_reserved {txt : Ident → Text} {raw : Raw} (hp : Plain txt raw) {i : Ident} (hi : i ∈ raw.functions ∨ StructName raw i ∨ Vector raw i) :
    txt i ≠ "main".toList ∧ txt i ≠ "RTIC_ASYNC_MAX_LOGICAL_PRIO".toList ∧ txt i ≠ "shared_resources".toList ∧
    txt i ≠ "you_must_enable_the_rt_feature_for_the_pac_in_your_cargo_toml".toList := by
  have := (hp.reserved i hi).2
  simp only [reservedNames, List.mem_cons, List.not_mem_nil, or_false, not_or] at this
  exact this

theorem plain_inj {txt : Ident → Text} {raw : Raw} (hp : Plain txt raw) {d d' : Def} (hd : Genuine raw d) (hd' : Genuine raw d')
    (h : body txt d = none) (h' : body txt d' = none) (hns : d.ns = d'.ns) (hn : d.name txt = d'.name txt) : d = d' := by
  cases d with
  | fn t =>
    have := not_reserved hp (.inl hd)
    cases d' <;> first | (cases hns; done) | (cases h'; done) | skip
    · rw [hp.inj _ _ hn]
    · rw [hp.inj _ _ hn] at hd; exact absurd hd' (hp.vectors _ hd)
    · exact absurd hn this.1
    · exact absurd hn this.2.1
  | handler t =>
    have := not_reserved hp (.inr (.inr hd))
    cases d' <;> first | (cases hns; done) | (cases h'; done) | skip
    · rw [hp.inj _ _ hn] at hd; exact absurd hd (hp.vectors _ hd')
    · rw [hp.inj _ _ hn]
    · exact absurd hn this.1
    · exact absurd hn this.2.1
  | main =>
    cases d' <;> first | (cases hns; done) | (cases h'; done) | skip
    · exact absurd hn.symm (not_reserved hp (.inl hd')).1
    · exact absurd hn.symm (not_reserved hp (.inr (.inr hd'))).1
    · rfl
    · unfold Def.name at hn; simp at hn
  | asyncMax =>
    cases d' <;> first | (cases hns; done) | (cases h'; done) | skip
    · exact absurd hn.symm (not_reserved hp (.inl hd')).2.1
    · exact absurd hn.symm (not_reserved hp (.inr (.inr hd'))).2.1
    · unfold Def.name at hn; simp at hn
    · rfl
  | module t =>
    have := not_reserved hp (.inl hd)
    cases d' <;> first | (cases hns; done) | (cases h'; done) | skip
    · rw [hp.inj _ _ hn]
    · rw [hp.inj _ _ hn] at hd; exact absurd hd' (hp.modules _ hd)
    · exact absurd hn this.2.2.2
    · exact absurd hn this.2.2.1
  | userStruct t =>
    have := not_reserved hp (.inr (.inl hd))
    cases d' <;> first | (cases hns; done) | (cases h'; done) | skip
    · rw [hp.inj _ _ hn] at hd; exact absurd hd (hp.modules _ hd')
    · rw [hp.inj _ _ hn]
    · exact absurd hn this.2.2.2
    · exact absurd hn this.2.2.1
  | rtErr =>
    cases d' <;> first | (cases hns; done) | (cases h'; done) | skip
    · exact absurd hn.symm (not_reserved hp (.inl hd')).2.2.2
    · exact absurd hn.symm (not_reserved hp (.inr (.inl hd'))).2.2.2
    · rfl
    · unfold Def.name at hn; simp at hn
  | sharedMod =>
    cases d' <;> first | (cases hns; done) | (cases h'; done) | skip
    · exact absurd hn.symm (not_reserved hp (.inl hd')).2.2.1
    · exact absurd hn.symm (not_reserved hp (.inr (.inl hd'))).2.2.1
    · unfold Def.name at hn; simp at hn
    · rfl
  | _ => cases h

/-- the endings of equal texts -/
theorem ends {a b x y : Text} (h : a ++ x = b ++ y) : x.reverse ++ a.reverse = y.reverse ++ b.reverse := by
  have := congrArg List.reverse h
  simpa using this

theorem body_inj_type {txt : Ident → Text} {raw : Raw} (hp : Plain txt raw) {d d' : Def} {c : Text}
    (h : body txt d = some c) (h' : body txt d' = some c) (hns : d.ns = .type) (hns' : d'.ns = .type) : d = d' := by
  cases d <;> first | (cases hns; done) | (cases h; done) | skip
  all_goals cases d' <;> first | (cases hns'; done) | (cases h'; done) | skip
  all_goals have hn := Option.some.inj (h.trans h'.symm)
  all_goals first | (rw [hp.inj _ _ (List.append_cancel_right hn)]; done) | (replace hn := ends hn; simp at hn; done)

/-- suffix of the name of something belonging to a software task -/
theorem soft_ne {txt : Ident → Text} {raw : Raw} (hp : Plain txt raw) {t q : Nat} {args : List TaskArg} (ht : TaskIs raw t .software q args) {sfx : Text} (hs : '_' ∉ sfx) :
    (∀ c, txt t ++ '_' :: sfx ≠ "shared_resource_".toList ++ c) ∧ (∀ c, '_' ∈ c → txt t ++ '_' :: sfx ≠ "local_".toList ++ c) := by
  obtain ⟨p1, p2, p3⟩ := hp.software t q args ht
  refine ⟨fun c hc => ?_, fun c hm hc => ?_⟩
  · have e : "shared_resource_".toList ++ c = "shared_resource".toList ++ '_' :: c := by simp
    rw [e] at hc
    rcases split_right hc.symm hs with ⟨h, -⟩ | h
    · exact p1 h.symm
    · exact p2 h
  · have e : "local_".toList ++ c = "local".toList ++ '_' :: c := by simp
    rw [e] at hc
    rcases split_right hc.symm hs with ⟨-, rfl⟩ | h
    · exact hs hm
    · exact p3 h

theorem body_inj_value {txt : Ident → Text} {raw : Raw} (hp : Plain txt raw) (hnew : ∀ r ty t, LocalField raw r ty → ¬ DeclaresLocal raw t r) {d d' : Def} {c : Text} (hd : Genuine raw d) (hd' : Genuine raw d')
    (h : body txt d = some c) (h' : body txt d' = some c) (hns : d.ns = .value) (hns' : d'.ns = .value) : d = d' := by
  have soft : ∀ {t c}, (∃ q args, TaskIs raw t .software q args) → (c = txt t ++ "_EXEC".toList ∨ c = txt t ++ "_spawn".toList ∨ c = txt t ++ "_waker".toList) →
      (∀ r, c ≠ "shared_resource_".toList ++ r) ∧ ∀ r, '_' ∈ r → c ≠ "local_".toList ++ r := by
    rintro t c ⟨q, args, ht⟩ (rfl | rfl | rfl)
    · exact soft_ne hp ht (sfx := "EXEC".toList) (by simp)
    · exact soft_ne hp ht (sfx := "spawn".toList) (by simp)
    · exact soft_ne hp ht (sfx := "waker".toList) (by simp)
  have locl : ∀ r, "local_resource_".toList ++ txt r = "local_".toList ++ ("resource_".toList ++ txt r) := by intro r; simp
  have decl : ∀ t r, "local_".toList ++ txt t ++ "_".toList ++ txt r = "local_".toList ++ (txt t ++ '_' :: txt r) := by intro t r; simp
  have locd : ∀ t r r', (∃ ty, LocalField raw r' ty) → DeclaresLocal raw t r → "local_resource_".toList ++ txt r' ≠ "local_".toList ++ txt t ++ "_".toList ++ txt r := by
    rintro t r r' ⟨ty, hf⟩ ht he
    rw [locl, decl] at he
    replace he := List.append_cancel_left he
    have p2 := hp.resource t r ht
    have e : "resource_".toList ++ txt r' = "resource".toList ++ '_' :: txt r' := by simp
    rw [e] at he
    rcases split_underscore he with ⟨-, h⟩ | ⟨c, h, -⟩ | ⟨c, h, -⟩
    · exact hnew r ty t (hp.inj _ _ h ▸ hf) ht
    · exact p2 ⟨c, h⟩
    · have : '_' ∈ "resource".toList := by rw [h]; simp
      simp at this
  cases d with
  | sharedStatic r =>
    cases d' <;> first | (cases hns'; done) | (cases h'; done) | skip
    all_goals have hn := Option.some.inj (h.trans h'.symm)
    · rw [hp.inj _ _ (List.append_cancel_left hn)]
    · simp at hn
    · simp at hn
    · exact absurd hn.symm ((soft hd' (.inl rfl)).1 _)
    · exact absurd hn.symm ((soft hd' (.inr (.inl rfl))).1 _)
    · exact absurd hn.symm ((soft hd' (.inr (.inr rfl))).1 _)
    · simp at hn
  | localStatic r =>
    cases d' <;> first | (cases hns'; done) | (cases h'; done) | skip
    all_goals have hn := Option.some.inj (h.trans h'.symm)
    · simp at hn
    · rw [hp.inj _ _ (List.append_cancel_left hn)]
    · exact absurd hn (locd _ _ _ hd hd')
    · exact absurd (hn.symm.trans (locl r)) ((soft hd' (.inl rfl)).2 _ (by simp))
    · exact absurd (hn.symm.trans (locl r)) ((soft hd' (.inr (.inl rfl))).2 _ (by simp))
    · exact absurd (hn.symm.trans (locl r)) ((soft hd' (.inr (.inr rfl))).2 _ (by simp))
    · simp at hn
  | declaredStatic t r =>
    cases d' <;> first | (cases hns'; done) | (cases h'; done) | skip
    all_goals have hn := Option.some.inj (h.trans h'.symm)
    · simp at hn
    · exact absurd hn.symm (locd _ _ _ hd' hd)
    · rw [decl, decl] at hn
      rcases split_underscore (List.append_cancel_left hn) with ⟨h1, h2⟩ | ⟨c, h, -⟩ | ⟨c, h, -⟩
      · rw [hp.inj _ _ h1, hp.inj _ _ h2]
      · exact absurd ⟨c, h⟩ (hp.declared _ _ _ _ hd hd')
      · exact absurd ⟨c, h⟩ (hp.declared _ _ _ _ hd' hd)
    · exact absurd (hn.symm.trans (decl t r)) ((soft hd' (.inl rfl)).2 _ (by simp))
    · exact absurd (hn.symm.trans (decl t r)) ((soft hd' (.inr (.inl rfl))).2 _ (by simp))
    · exact absurd (hn.symm.trans (decl t r)) ((soft hd' (.inr (.inr rfl))).2 _ (by simp))
    · simp at hn
  | exec t =>
    have hs := soft hd (.inl rfl)
    cases d' <;> first | (cases hns'; done) | (cases h'; done) | skip
    all_goals have hn := Option.some.inj (h.trans h'.symm)
    · exact absurd hn (hs.1 _)
    · exact absurd (hn.trans (locl _)) (hs.2 _ (by simp))
    · exact absurd (hn.trans (decl _ _)) (hs.2 _ (by simp))
    · rw [hp.inj _ _ (List.append_cancel_right hn)]
    · replace hn := ends hn; simp at hn
    · replace hn := ends hn; simp at hn
    · replace hn := congrArg List.reverse hn; simp at hn
  | spawn t =>
    have hs := soft hd (.inr (.inl rfl))
    cases d' <;> first | (cases hns'; done) | (cases h'; done) | skip
    all_goals have hn := Option.some.inj (h.trans h'.symm)
    · exact absurd hn (hs.1 _)
    · exact absurd (hn.trans (locl _)) (hs.2 _ (by simp))
    · exact absurd (hn.trans (decl _ _)) (hs.2 _ (by simp))
    · replace hn := ends hn; simp at hn
    · rw [hp.inj _ _ (List.append_cancel_right hn)]
    · replace hn := ends hn; simp at hn
    · replace hn := congrArg List.reverse hn; simp at hn
  | waker t =>
    have hs := soft hd (.inr (.inr rfl))
    cases d' <;> first | (cases hns'; done) | (cases h'; done) | skip
    all_goals have hn := Option.some.inj (h.trans h'.symm)
    · exact absurd hn (hs.1 _)
    · exact absurd (hn.trans (locl _)) (hs.2 _ (by simp))
    · exact absurd (hn.trans (decl _ _)) (hs.2 _ (by simp))
    · replace hn := ends hn; simp at hn
    · replace hn := ends hn; simp at hn
    · rw [hp.inj _ _ (List.append_cancel_right hn)]
    · replace hn := congrArg List.reverse hn; simp at hn
  | zeroDispatcher =>
    cases d' <;> first | (cases hns'; done) | (cases h'; done) | skip
    all_goals have hn := Option.some.inj (h.trans h'.symm)
    · simp at hn
    · simp at hn
    · simp at hn
    · replace hn := congrArg List.reverse hn; simp at hn
    · replace hn := congrArg List.reverse hn; simp at hn
    · replace hn := congrArg List.reverse hn; simp at hn
    · rfl
  | _ => first | (cases h; done) | (cases hns; done)

theorem name_inj {txt : Ident → Text} {raw : Raw} (hp : Plain txt raw) (hnew : ∀ r ty t, LocalField raw r ty → ¬ DeclaresLocal raw t r) {d d' : Def} (hd : Genuine raw d) (hd' : Genuine raw d')
    (hns : d.ns = d'.ns) (hn : d.name txt = d'.name txt) : d = d' := by
  cases hb : body txt d with
  | none =>
    cases hb' : body txt d' with
    | none => exact plain_inj hp hd hd' hb hb' hns hn
    | some c => rw [name_of_body hb'] at hn; exact absurd hn (not_internal hp hd hb c)
  | some c =>
    cases hb' : body txt d' with
    | none => rw [name_of_body hb] at hn; exact absurd hn.symm (not_internal hp hd' hb' c)
    | some c' =>
      rw [name_of_body hb, name_of_body hb'] at hn
      cases List.append_cancel_left hn
      cases hv : d.ns with
      | value => exact body_inj_value hp hnew hd hd' hb hb' hv (hns.symm.trans hv)
      | type => exact body_inj_type hp hb hb' hv (hns.symm.trans hv)

end Verif.Names
