import Verif.Analysis.Spec

/-! # The parsed tree says what the user wrote -/

namespace Verif.Analysis

/-! ## generic -/

theorem foldlM_inv {α β : Type} {f : β → α → Res β} (P : List α → β → Prop)
    (hstep : ∀ l a b b', P l b → f b a = .ok b' → P (l ++ [a]) b') {l : List α} {b b' : β} {pre : List α} (h0 : P pre b)
    (h : l.foldlM f b = .ok b') : P (pre ++ l) b' := by
  induction l generalizing b pre with
  | nil => simp [List.foldlM, pure, Except.pure] at h; subst h; simpa using h0
  | cons a l ih =>
    rw [List.foldlM_cons] at h
    cases hf : f b a with
    | error e => rw [hf] at h; cases h
    | ok b1 =>
      rw [hf] at h
      have := ih (pre := pre ++ [a]) (hstep _ _ _ _ h0 hf) h
      simpa using this

theorem foldlM_ok_append {α β : Type} {f : β → α → Res β} {l1 l2 : List α} {b b' : β} :
    (l1 ++ l2).foldlM f b = .ok b' ↔ ∃ c, l1.foldlM f b = .ok c ∧ l2.foldlM f c = .ok b' := by
  rw [List.foldlM_append]
  cases h : l1.foldlM f b with
  | error e =>
    constructor
    · intro h'; cases h'
    · rintro ⟨c, h', _⟩; cases h'
  | ok c =>
    constructor
    · intro h'; exact ⟨c, rfl, h'⟩
    · rintro ⟨c', h', h2⟩; cases h'; exact h2

theorem bind_ok {α β : Type} {x : Res α} {f : α → Res β} {b : β} (h : (x >>= f) = .ok b) : ∃ a, x = .ok a ∧ f a = .ok b := by
  cases x with
  | error e => cases h
  | ok a => exact ⟨a, rfl, h⟩

theorem forM_ok {α : Type} {f : α → Res Unit} {l : List α} : l.forM f = .ok () ↔ ∀ a ∈ l, f a = .ok () := by
  induction l with
  | nil => simp [List.forM, pure, Except.pure]
  | cons a l ih =>
    show (f a >>= fun _ => l.forM f) = _ ↔ _
    constructor
    · intro h
      obtain ⟨u, h1, h2⟩ := bind_ok h
      intro x hx
      rcases List.mem_cons.mp hx with rfl | hx
      · exact h1
      · exact ih.mp h2 x hx
    · intro h
      rw [h a List.mem_cons_self]
      exact ih.mpr fun x hx => h x (List.mem_cons_of_mem _ hx)

theorem mapM_ok {α β : Type} {f : α → Res β} {l : List α} {l' : List β} (h : l.mapM f = .ok l') :
    (∀ b, b ∈ l' ↔ ∃ a ∈ l, f a = .ok b) ∧ ∀ a ∈ l, ∃ b, f a = .ok b := by
  induction l generalizing l' with
  | nil => simp [pure, Except.pure] at h; subst h; simp
  | cons a l ih =>
    rw [List.mapM_cons] at h
    obtain ⟨b, h1, h⟩ := bind_ok h
    obtain ⟨bs, h2, h⟩ := bind_ok h
    cases h
    obtain ⟨i1, i2⟩ := ih h2
    constructor
    · intro x
      simp only [List.mem_cons]
      rw [i1]
      constructor
      · rintro (rfl | ⟨a', ha', h'⟩)
        · exact ⟨a, .inl rfl, h1⟩
        · exact ⟨a', .inr ha', h'⟩
      · rintro ⟨a', rfl | ha', h'⟩
        · left; rw [h1] at h'; cases h'; rfl
        · right; exact ⟨a', ha', h'⟩
    · intro x hx
      rcases List.mem_cons.mp hx with rfl | hx
      · exact ⟨b, h1⟩
      · exact i2 x hx

theorem mapM_exists {α β : Type} {f : α → Res β} {l : List α} (h : ∀ a ∈ l, ∃ b, f a = .ok b) : ∃ l', l.mapM f = .ok l' := by
  induction l with
  | nil => exact ⟨[], rfl⟩
  | cons a l ih =>
    obtain ⟨b, hb⟩ := h a List.mem_cons_self
    obtain ⟨bs, hbs⟩ := ih fun x hx => h x (List.mem_cons_of_mem _ hx)
    refine ⟨b :: bs, ?_⟩
    rw [List.mapM_cons, hb, hbs]; rfl

/-! ## maps -/

theorem get?_some_mem {α : Type} {m : Map α} {k : Ident} {v : α} (h : get? m k = some v) : (k, v) ∈ m := by
  induction m with
  | nil => cases h
  | cons x m ih =>
    obtain ⟨k', v'⟩ := x
    unfold get? at h
    rw [List.lookup_cons] at h
    by_cases hk : k = k'
    · subst hk; simp at h; subst h; exact List.mem_cons_self
    · rw [show (k == k') = false from by simpa using hk] at h
      exact List.mem_cons_of_mem _ (ih h)

theorem has_iff {α : Type} {m : Map α} {k : Ident} : has m k = true ↔ ∃ v, (k, v) ∈ m := by
  unfold has get?
  induction m with
  | nil => simp
  | cons x m ih =>
    obtain ⟨k', v'⟩ := x
    rw [List.lookup_cons]
    by_cases hk : k = k'
    · subst hk; simp
    · rw [show (k == k') = false from by simpa using hk]
      simp only [ih, List.mem_cons, Prod.mk.injEq, hk, false_and, false_or]

theorem has_false {α : Type} {m : Map α} {k : Ident} : has m k = false ↔ k ∉ m.map Prod.fst := by
  rw [← Bool.not_eq_true, has_iff]; simp

theorem get?_of_mem {α : Type} {m : Map α} {k : Ident} {v : α} (hn : (m.map Prod.fst).Nodup) (h : (k, v) ∈ m) : get? m k = some v := by
  induction m with
  | nil => cases h
  | cons x m ih =>
    obtain ⟨k', v'⟩ := x
    unfold get?
    rw [List.lookup_cons]
    simp only [List.map_cons, List.nodup_cons] at hn
    rcases List.mem_cons.mp h with h | h
    · cases h; simp
    · have : k ≠ k' := fun e => hn.1 (e ▸ List.mem_map.mpr ⟨(k, v), h, rfl⟩)
      rw [show (k == k') = false from by simpa using this]
      exact ih hn.2 h

theorem get?_insert {α : Type} {m : Map α} {k k' : Ident} {v : α} : get? (insert m k v) k' = if k' = k then some v else get? m k' := by
  induction m with
  | nil =>
    unfold insert get?
    rw [List.lookup_cons]
    by_cases h : k' = k
    · simp [h]
    · rw [show (k' == k) = false from by simpa using h]; simp [h]
  | cons x m ih =>
    obtain ⟨kx, vx⟩ := x
    unfold insert
    unfold get? at ih ⊢
    by_cases h1 : kx = k
    · subst h1
      rw [if_pos rfl]
      rw [List.lookup_cons, List.lookup_cons]
      by_cases h : k' = kx
      · simp [h]
      · rw [show (k' == kx) = false from by simpa using h]; simp [h]
    · rw [if_neg h1, List.lookup_cons, List.lookup_cons]
      by_cases h : k' = kx
      · subst h; simp [h1]
      · rw [show (k' == kx) = false from by simpa using h]; exact ih

/-! ## resource lists -/

theorem insertNew_ok {α : Type} {e : Err} {m m' : Map α} {kv : Ident × α} (h : insertNew e m kv = .ok m') :
    kv.1 ∉ m.map Prod.fst ∧ m' = m ++ [kv] := by
  unfold insertNew at h
  split at h
  · cases h
  · rename_i hh
    cases h
    exact ⟨has_false.mp (by simpa using hh), rfl⟩

theorem foldlM_insertNew {α : Type} {e : Err} {l : List (Ident × α)} {m m' : Map α} (hn : (m.map Prod.fst).Nodup) (h : l.foldlM (insertNew e) m = .ok m') :
    m' = m ++ l ∧ (m'.map Prod.fst).Nodup := by
  have := foldlM_inv (f := insertNew e) (fun l b => b = m ++ l ∧ (b.map Prod.fst).Nodup) (pre := []) ?_ (b := m) ⟨by simp, hn⟩ h
  · simpa using this
  · rintro l a b b' ⟨h1, h2⟩ hb
    obtain ⟨h3, rfl⟩ := insertNew_ok hb
    refine ⟨by rw [h1]; simp, ?_⟩
    rw [List.map_append, List.nodup_append]
    refine ⟨h2, by simp, ?_⟩
    intro x hx y hy
    simp at hy; subst hy
    exact fun e => h3 (e ▸ hx)

theorem parseShared_ok {l : List (Ident × Access)} {m : Map Access} (h : parseShared l = .ok m) : m = l ∧ (m.map Prod.fst).Nodup := by
  simpa using foldlM_insertNew (by simp) h

theorem parseLocals_ok {l : List (Ident × TaskLocal)} {m : Map TaskLocal} (h : parseLocals l = .ok m) : m = l ∧ (m.map Prod.fst).Nodup := by
  unfold parseLocals at h
  obtain ⟨m1, h1, h⟩ := bind_ok h
  split at h
  · cases h
  · cases h; simpa using foldlM_insertNew (by simp) h1

/-! ## task attributes -/

/-- what the accumulator of the argument loop knows -/
structure ArgInv (args : List TaskArg) (s : ArgSt) : Prop where
  binds : ∀ b, s.binds = some b ↔ .binds b ∈ args
  priority : ∀ p, s.priority = some p ↔ .priority p ∈ args
  range : ∀ p, s.priority = some p → p ≤ 255
  shared : ∀ l, s.shared = some l ↔ .shared l ∈ args
  locals : ∀ l, s.locals = some l ↔ .locals l ∈ args
  localTask : ∀ b, s.localTask = some b ↔ .localTask b ∈ args
  nodupS : ∀ l, s.shared = some l → (l.map Prod.fst).Nodup
  nodupL : ∀ l, s.locals = some l → (l.map Prod.fst).Nodup

theorem argInv_nil : ArgInv [] {} := by
  constructor <;> simp

theorem argInv_step {args : List TaskArg} {a : TaskArg} {s s' : ArgSt} (hi : ArgInv args s) (h : taskArg s a = .ok s') : ArgInv (args ++ [a]) s' := by
  obtain ⟨h1, h2, h3, h4, h5, h6, h7, h8⟩ := hi
  cases a with
  | localTask b =>
    simp only [taskArg] at h
    split at h
    · cases h
    · cases h; constructor <;> grind
  | binds b =>
    simp only [taskArg] at h
    split at h
    · cases h
    · cases h; constructor <;> grind
  | priority b =>
    simp only [taskArg] at h
    split at h
    · cases h
    · split at h
      · cases h
      · cases h; constructor <;> grind
  | shared b =>
    simp only [taskArg] at h
    split at h
    · cases h
    · obtain ⟨m, hm, h'⟩ := bind_ok h
      obtain ⟨e, hnd⟩ := parseShared_ok hm
      clear h hm
      subst e
      cases h'; constructor <;> grind
  | locals b =>
    simp only [taskArg] at h
    split at h
    · cases h
    · obtain ⟨m, hm, h'⟩ := bind_ok h
      obtain ⟨e, hnd⟩ := parseLocals_ok hm
      clear h hm
      subst e
      cases h'; constructor <;> grind
  | other => cases h

/-- a parsed argument list agrees with what was written -/
structure ArgsSay (args : List TaskArg) (sh : Map Access) (lo : Map TaskLocal) : Prop where
  shared : ∀ ra, ra ∈ sh ↔ ∃ l, .shared l ∈ args ∧ ra ∈ l
  locals : ∀ rk, rk ∈ lo ↔ ∃ l, .locals l ∈ args ∧ rk ∈ l
  nodupS : (sh.map Prod.fst).Nodup
  nodupL : (lo.map Prod.fst).Nodup

theorem argsSay_of_inv {args : List TaskArg} {s : ArgSt} (hi : ArgInv args s) : ArgsSay args (s.shared.getD []) (s.locals.getD []) := by
  obtain ⟨h1, h2, h3, h4, h5, h6, h7, h8⟩ := hi
  constructor
  · intro ra
    cases hs : s.shared with
    | none => simp only [Option.getD_none]; grind
    | some l => simp only [Option.getD_some]; grind
  · intro ra
    cases hs : s.locals with
    | none => simp only [Option.getD_none]; grind
    | some l => simp only [Option.getD_some]; grind
  · cases hs : s.shared with
    | none => simp
    | some l => exact h7 l hs
  · cases hs : s.locals with
    | none => simp
    | some l => exact h8 l hs

theorem taskArgs_fold {args : List TaskArg} {s : ArgSt} (h : args.foldlM taskArg {} = .ok s) : ArgInv args s := by
  simpa using foldlM_inv (f := taskArg) ArgInv (fun _ _ _ _ hi hs => argInv_step hi hs) (pre := []) argInv_nil h

theorem taskArgs_hw {args : List TaskArg} {ins : List Ty} {t : HwTask} (h : taskArgs args ins = .ok (.inl t)) :
    .binds t.binds ∈ args ∧ (∀ b, .binds b ∈ args → b = t.binds) ∧ (∀ p, HasPriority args p ↔ p = t.priority) ∧ 1 ≤ t.priority ∧ t.priority ≤ 255 ∧
    ArgsSay args t.shared t.locals := by
  unfold taskArgs at h
  obtain ⟨s, hs, h⟩ := bind_ok h
  have hi := taskArgs_fold hs
  have hsay := argsSay_of_inv hi
  obtain ⟨h1, h2, h3, h4, h5, h6, h7, h8⟩ := hi
  cases hb : s.binds with
  | none => rw [hb] at h; cases h
  | some b =>
    rw [hb] at h
    simp only at h
    split at h
    · cases h
    · rename_i hne
      cases h
      have hbm := (h1 b).mp hb
      refine ⟨hbm, fun b' hb' => ?_, fun p => ?_, Nat.one_le_iff_ne_zero.mpr hne, ?_, hsay⟩
      · have := (h1 b').mpr hb'; rw [hb] at this; cases this; rfl
      · unfold HasPriority
        cases hp : s.priority with
        | none =>
          simp only [Option.getD_none]
          constructor
          · rintro (hh | ⟨-, ⟨-, rfl⟩ | ⟨hh, -⟩⟩)
            · have := (h2 p).mpr hh; rw [hp] at this; cases this
            · rfl
            · exact absurd hbm (hh b)
          · rintro rfl
            refine .inr ⟨fun n hn => ?_, .inl ⟨⟨b, hbm⟩, rfl⟩⟩
            have := (h2 n).mpr hn; rw [hp] at this; cases this
        | some q =>
          simp only [Option.getD_some]
          constructor
          · rintro (hh | ⟨hh, -⟩)
            · have := (h2 p).mpr hh; rw [hp] at this; cases this; rfl
            · exact absurd ((h2 q).mp hp) (hh q)
          · rintro rfl; exact .inl ((h2 _).mp hp)
      · cases hp : s.priority with
        | none => simp
        | some q => simpa using h3 q hp

theorem taskArgs_sw {args : List TaskArg} {ins : List Ty} {t : SwTask} (h : taskArgs args ins = .ok (.inr t)) :
    (∀ b, .binds b ∉ args) ∧ (∀ p, HasPriority args p ↔ p = t.priority) ∧ t.priority ≤ 255 ∧
    ArgsSay args t.shared t.locals ∧ t.inputs = ins ∧ (∀ b, (.localTask b ∈ args ∨ b = false ∧ ∀ b', .localTask b' ∉ args) ↔ b = t.localTask) := by
  unfold taskArgs at h
  obtain ⟨s, hs, h⟩ := bind_ok h
  have hi := taskArgs_fold hs
  have hsay := argsSay_of_inv hi
  obtain ⟨h1, h2, h3, h4, h5, h6, h7, h8⟩ := hi
  cases hb : s.binds with
  | some b =>
    rw [hb] at h
    simp only at h
    split at h <;> cases h
  | none =>
    rw [hb] at h
    cases h
    have hnb : ∀ b, TaskArg.binds b ∉ args := fun b hh => by have := (h1 b).mpr hh; rw [hb] at this; cases this
    refine ⟨hnb, fun p => ?_, ?_, hsay, rfl, fun b => ?_⟩
    · unfold HasPriority
      cases hp : s.priority with
      | none =>
        simp only [Option.getD_none]
        constructor
        · rintro (hh | ⟨-, ⟨⟨b, hh⟩, -⟩ | ⟨-, rfl⟩⟩)
          · have := (h2 p).mpr hh; rw [hp] at this; cases this
          · exact absurd hh (hnb b)
          · rfl
        · rintro rfl
          refine .inr ⟨fun n hn => ?_, .inr ⟨hnb, rfl⟩⟩
          have := (h2 n).mpr hn; rw [hp] at this; cases this
      | some q =>
        simp only [Option.getD_some]
        constructor
        · rintro (hh | ⟨hh, -⟩)
          · have := (h2 p).mpr hh; rw [hp] at this; cases this; rfl
          · exact absurd ((h2 q).mp hp) (hh q)
        · rintro rfl; exact .inl ((h2 _).mp hp)
    · cases hp : s.priority with
      | none => simp
      | some q => simpa using h3 q hp
    · cases hl : s.localTask with
      | none =>
        simp only [Option.getD_none]
        constructor
        · rintro (hh | ⟨rfl, -⟩)
          · have := (h6 b).mpr hh; rw [hl] at this; cases this
          · rfl
        · rintro rfl
          refine .inr ⟨rfl, fun n hn => ?_⟩
          have := (h6 n).mpr hn; rw [hl] at this; cases this
      | some q =>
        simp only [Option.getD_some]
        constructor
        · rintro (hh | ⟨-, hh⟩)
          · have := (h6 b).mpr hh; rw [hl] at this; cases this; rfl
          · exact absurd ((h6 q).mp hl) (hh q)
        · rintro rfl; exact .inl ((h6 _).mp hl)

theorem initArgs_ok {args : List TaskArg} {l : Map TaskLocal} (h : initArgs args = .ok l) :
    (∀ rk, rk ∈ l ↔ ∃ l', .locals l' ∈ args ∧ rk ∈ l') ∧ (∀ r, (r, .external) ∉ l) ∧ (l.map Prod.fst).Nodup := by
  unfold initArgs at h
  obtain ⟨s, hs, h⟩ := bind_ok h
  have hi : ArgInv args s := by
    have := foldlM_inv ArgInv (pre := []) (by
      intro l a b b' hi hs
      cases a <;> first | exact argInv_step hi hs | cases hs) argInv_nil hs
    simpa using this
  have hsay := argsSay_of_inv hi
  simp only at h
  split at h
  · cases h
  · rename_i hne
    cases h
    refine ⟨hsay.locals, fun r hr => hne ?_, hsay.nodupL⟩
    exact List.any_eq_true.mpr ⟨_, hr, by simp⟩

theorem idleArgs_ok {args : List TaskArg} {sh : Map Access} {l : Map TaskLocal} (h : idleArgs args = .ok (sh, l)) : ArgsSay args sh l := by
  unfold idleArgs at h
  obtain ⟨s, hs, h⟩ := bind_ok h
  have hi : ArgInv args s := by
    have := foldlM_inv ArgInv (pre := []) (by
      intro l a b b' hi hs
      cases a <;> first | exact argInv_step hi hs | cases hs) argInv_nil hs
    simpa using this
  have hsay := argsSay_of_inv hi
  cases h
  exact hsay

/-! ## items -/

/-- names of the functions among the items -/
def fnName : Item → Option Ident
  | .init n _ _ _ _ | .idle n _ _ | .task n _ _ _ _ => some n
  | _ => none

/-- what the state of `App::parse` knows about the items already processed -/
structure PInv (items : List Item) (s : PSt) : Prop where
  hw : ∀ n t, (n, t) ∈ s.hw ↔ ∃ args as ins ok, .task n args as ins ok ∈ items ∧ taskArgs args ins = .ok (.inl t)
  sw : ∀ n t, (n, t) ∈ s.sw ↔ ∃ args as ins ok, .task n args as ins ok ∈ items ∧ taskArgs args ins = .ok (.inr t)
  tasks : ∀ n args as ins ok, .task n args as ins ok ∈ items → ∃ r, taskArgs args ins = .ok r
  idle : ∀ i, s.idle = some i ↔ ∃ args ok, .idle i.name args ok ∈ items ∧ idleArgs args = .ok (i.shared, i.locals)
  idles : ∀ n args ok, .idle n args ok ∈ items → ∃ r, idleArgs args = .ok r
  init : ∀ i, s.init = some i ↔ ∃ args ok, .init i.name args ok i.userShared i.userLocal ∈ items ∧ initArgs args = .ok i.locals
  inits : ∀ n args ok a b, .init n args ok a b ∈ items → ∃ r, initArgs args = .ok r
  sharedRes : ∀ r, r ∈ s.sharedRes ↔ ∃ i f, .sharedStruct i f ∈ items ∧ r ∈ f
  localRes : ∀ r, r ∈ s.localRes ↔ ∃ i f, .localStruct i f ∈ items ∧ r ∈ f
  nodupS : (s.sharedRes.map Prod.fst).Nodup
  nodupL : (s.localRes.map Prod.fst).Nodup
  seen : ∀ n, n ∈ s.seen ↔ some n ∈ items.map fnName
  names : (items.filterMap fnName).Nodup
  binds : ∀ b, b ∈ s.bindings ↔ b ∈ s.hw.map fun nt => nt.2.binds
  nodupHw : (s.hw.map Prod.fst).Nodup
  nodupSw : (s.sw.map Prod.fst).Nodup
  nodupB : (s.hw.map fun nt => nt.2.binds).Nodup

theorem checkIdent_ok {s s' : PSt} {i : Ident} (h : checkIdent s i = .ok s') : i ∉ s.seen ∧ s' = { s with seen := i :: s.seen } := by
  unfold checkIdent at h
  split at h
  · cases h
  · cases h; exact ⟨by assumption, rfl⟩

theorem checkBinding_ok {s s' : PSt} {i : Ident} (h : checkBinding s i = .ok s') : i ∉ s.bindings ∧ s' = { s with bindings := i :: s.bindings } := by
  unfold checkBinding at h
  split at h
  · cases h
  · cases h; exact ⟨by assumption, rfl⟩

theorem names_step {items : List Item} {a : Item} {n : Ident} (h : (items.filterMap fnName).Nodup) (hn : some n ∉ items.map fnName) (ha : fnName a = some n) :
    ((items ++ [a]).filterMap fnName).Nodup := by
  rw [List.filterMap_append, List.nodup_append]
  refine ⟨h, by simp [ha], ?_⟩
  intro x hx y hy
  simp [ha] at hy
  subst hy
  intro e; subst e
  apply hn
  obtain ⟨it, h1, h2⟩ := List.mem_filterMap.mp hx
  exact List.mem_map.mpr ⟨it, h1, h2⟩

theorem names_step_none {items : List Item} {a : Item} (h : (items.filterMap fnName).Nodup) (ha : fnName a = none) : ((items ++ [a]).filterMap fnName).Nodup := by
  rw [List.filterMap_append]; simpa [ha] using h

theorem pinv_nil : PInv [] {} := by
  constructor <;> simp

set_option maxHeartbeats 1000000 in
theorem pinv_step {items : List Item} {a : Item} {s s' : PSt} (hi : PInv items s) (h : parseItem s a = .ok s') : PInv (items ++ [a]) s' := by
  cases a with
  | other =>
    simp only [parseItem] at h; cases h
    have := names_step_none (a := .other) hi.names rfl
    obtain ⟨h1, h2, h3, h4, h5, h6, h7, h8, h9, h10, h11, h12, h13, h14, h15, h16, h17⟩ := hi
    constructor <;> try assumption
    all_goals simp only [List.mem_append, List.mem_singleton, List.map_append, List.map_cons, List.map_nil, fnName]
    all_goals grind
  | init n args ok us ul =>
    simp only [parseItem] at h
    obtain ⟨l, hl, h⟩ := bind_ok h
    split at h
    · cases h
    · rename_i hnone
      obtain ⟨s1, hs1, h⟩ := bind_ok h
      obtain ⟨hns, rfl⟩ := checkIdent_ok hs1
      split at h
      · cases h
        have hnone' : s.init = none := by simpa using hnone
        have := names_step (a := .init n args ok us ul) (n := n) hi.names (fun hh => hns ((hi.seen n).mpr hh)) rfl
        obtain ⟨h1, h2, h3, h4, h5, h6, h7, h8, h9, h10, h11, h12, h13, h14, h15, h16, h17⟩ := hi
        have hno : ∀ n args ok a b, Item.init n args ok a b ∈ items → False := fun n args ok a b hm => by
          obtain ⟨r, hr⟩ := h7 _ _ _ _ _ hm
          have := (h6 ⟨n, r, a, b⟩).mpr ⟨args, ok, hm, hr⟩
          rw [hnone'] at this; cases this
        constructor <;> try assumption
        case init =>
          intro i
          simp only [List.mem_append, List.mem_singleton]
          constructor
          · intro hh; cases hh; exact ⟨args, ok, .inr rfl, hl⟩
          · rintro ⟨args', ok', hm | hm, hr⟩
            · exact (hno _ _ _ _ _ hm).elim
            · obtain ⟨n', l', a', b'⟩ := i
              cases hm
              rw [hl] at hr; cases hr; rfl
        all_goals simp only [List.mem_append, List.mem_singleton, List.map_append, List.map_cons, List.map_nil, fnName]
        all_goals grind
      · cases h
  | idle n args ok =>
    simp only [parseItem] at h
    obtain ⟨⟨sh, l⟩, hl, h⟩ := bind_ok h
    simp only at h
    split at h
    · cases h
    · rename_i hnone
      obtain ⟨s1, hs1, h⟩ := bind_ok h
      obtain ⟨hns, rfl⟩ := checkIdent_ok hs1
      split at h
      · cases h
        have hnone' : s.idle = none := by simpa using hnone
        have := names_step (a := .idle n args ok) (n := n) hi.names (fun hh => hns ((hi.seen n).mpr hh)) rfl
        obtain ⟨h1, h2, h3, h4, h5, h6, h7, h8, h9, h10, h11, h12, h13, h14, h15, h16, h17⟩ := hi
        have hno : ∀ n args ok, Item.idle n args ok ∈ items → False := fun n args ok hm => by
          obtain ⟨r, hr⟩ := h5 _ _ _ hm
          have := (h4 ⟨n, r.1, r.2⟩).mpr ⟨args, ok, hm, hr⟩
          rw [hnone'] at this; cases this
        constructor <;> try assumption
        case idle =>
          intro i
          simp only [List.mem_append, List.mem_singleton]
          constructor
          · intro hh; cases hh; exact ⟨args, ok, .inr rfl, hl⟩
          · rintro ⟨args', ok', hm | hm, hr⟩
            · exact (hno _ _ _ hm).elim
            · obtain ⟨n', l', a'⟩ := i
              cases hm
              rw [hl] at hr; cases hr; rfl
        all_goals simp only [List.mem_append, List.mem_singleton, List.map_append, List.map_cons, List.map_nil, fnName]
        all_goals grind
      · cases h
  | task n args as ins ok =>
    simp only [parseItem] at h
    split at h
    · cases h
    · rename_i hnew
      simp only [Bool.or_eq_true, not_or, Bool.not_eq_true] at hnew
      have hnh := has_false.mp hnew.1
      have hnsw := has_false.mp hnew.2
      obtain ⟨r, hr, h⟩ := bind_ok h
      cases r with
      | inl t =>
        simp only at h
        obtain ⟨s1, hs1, h⟩ := bind_ok h
        obtain ⟨hnb, rfl⟩ := checkBinding_ok hs1
        obtain ⟨s2, hs2, h⟩ := bind_ok h
        obtain ⟨hns, rfl⟩ := checkIdent_ok hs2
        split at h
        · cases h
          simp only at hns
          have := names_step (a := .task n args as ins ok) (n := n) hi.names (fun hh => hns ((hi.seen n).mpr hh)) rfl
          obtain ⟨h1, h2, h3, h4, h5, h6, h7, h8, h9, h10, h11, h12, h13, h14, h15, h16, h17⟩ := hi
          constructor <;> try assumption
          case nodupHw =>
            simp only [List.map_append, List.map_cons, List.map_nil]
            rw [List.nodup_append]
            exact ⟨h15, by simp, by intro x hx y hy; simp at hy; subst hy; intro e; exact hnh (e ▸ hx)⟩
          case nodupB =>
            simp only [List.map_append, List.map_cons, List.map_nil]
            rw [List.nodup_append]
            exact ⟨h17, by simp, by intro x hx y hy; simp at hy; subst hy; intro e; exact hnb ((h14 _).mpr (e ▸ hx))⟩
          all_goals simp only [List.mem_append, List.mem_singleton, List.map_append, List.map_cons, List.map_nil, fnName]
          all_goals grind
        · cases h
      | inr t =>
        simp only at h
        obtain ⟨s2, hs2, h⟩ := bind_ok h
        obtain ⟨hns, rfl⟩ := checkIdent_ok hs2
        split at h
        · cases h
          have := names_step (a := .task n args as ins ok) (n := n) hi.names (fun hh => hns ((hi.seen n).mpr hh)) rfl
          obtain ⟨h1, h2, h3, h4, h5, h6, h7, h8, h9, h10, h11, h12, h13, h14, h15, h16, h17⟩ := hi
          constructor <;> try assumption
          case nodupSw =>
            simp only [List.map_append, List.map_cons, List.map_nil]
            rw [List.nodup_append]
            exact ⟨h16, by simp, by intro x hx y hy; simp at hy; subst hy; intro e; exact hnsw (e ▸ hx)⟩
          all_goals simp only [List.mem_append, List.mem_singleton, List.map_append, List.map_cons, List.map_nil, fnName]
          all_goals grind
        · cases h
  | sharedStruct i f =>
    simp only [parseItem] at h
    split at h
    · cases h
    · rename_i hemp
      obtain ⟨m, hm, h⟩ := bind_ok h
      cases h
      have hemp' : s.sharedRes = [] := by simpa using hemp
      rw [hemp'] at hm
      obtain ⟨em, hnd⟩ := foldlM_insertNew (by simp) hm
      rw [List.nil_append] at em
      clear hm h
      subst em
      have := names_step_none (a := .sharedStruct i m) hi.names rfl
      obtain ⟨h1, h2, h3, h4, h5, h6, h7, h8, h9, h10, h11, h12, h13, h14, h15, h16, h17⟩ := hi
      constructor <;> try assumption
      case sharedRes =>
        intro r
        simp only [List.mem_append, List.mem_singleton]
        constructor
        · intro hr; exact ⟨i, m, .inr rfl, hr⟩
        · rintro ⟨i', f', hm | hm, hr⟩
          · have := (h8 r).mpr ⟨i', f', hm, hr⟩; rw [hemp'] at this; cases this
          · cases hm; exact hr
      all_goals simp only [List.mem_append, List.mem_singleton, List.map_append, List.map_cons, List.map_nil, fnName]
      all_goals grind
  | localStruct i f =>
    simp only [parseItem] at h
    split at h
    · cases h
    · rename_i hemp
      obtain ⟨m, hm, h⟩ := bind_ok h
      cases h
      have hemp' : s.localRes = [] := by simpa using hemp
      rw [hemp'] at hm
      obtain ⟨em, hnd⟩ := foldlM_insertNew (by simp) hm
      rw [List.nil_append] at em
      clear hm h
      subst em
      have := names_step_none (a := .localStruct i m) hi.names rfl
      obtain ⟨h1, h2, h3, h4, h5, h6, h7, h8, h9, h10, h11, h12, h13, h14, h15, h16, h17⟩ := hi
      constructor <;> try assumption
      case localRes =>
        intro r
        simp only [List.mem_append, List.mem_singleton]
        constructor
        · intro hr; exact ⟨i, m, .inr rfl, hr⟩
        · rintro ⟨i', f', hm | hm, hr⟩
          · have := (h9 r).mpr ⟨i', f', hm, hr⟩; rw [hemp'] at this; cases this
          · cases hm; exact hr
      all_goals simp only [List.mem_append, List.mem_singleton, List.map_append, List.map_cons, List.map_nil, fnName]
      all_goals grind

end Verif.Analysis
