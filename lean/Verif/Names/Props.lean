import Verif.Names.Lemmas

/-! # The generated definitions have different names (C86) -/

namespace Verif.Names

open Verif.Analysis

theorem mapM_pairwise {α β : Type} {f : α → Res β} {R : α → α → Prop} {S : β → β → Prop} {l : List α} {l' : List β} (h : l.mapM f = .ok l') (hl : l.Pairwise R)
    (hf : ∀ a a' b b', R a a' → f a = .ok b → f a' = .ok b' → S b b') : l'.Pairwise S := by
  induction l generalizing l' with
  | nil => simp [pure, Except.pure] at h; subst h; simp
  | cons a l ih =>
    rw [List.mapM_cons] at h
    obtain ⟨b, h1, h⟩ := bind_ok h
    obtain ⟨bs, h2, h⟩ := bind_ok h
    cases h
    rw [List.pairwise_cons] at hl ⊢
    refine ⟨fun b' hb' => ?_, ih h2 hl.2⟩
    obtain ⟨a', ha', he⟩ := ((mapM_ok h2).1 b').mp hb'
    exact hf a a' b b' (hl.1 a' ha') h1 he

variable {tg : Target} {bits : Nat} {raw : Raw} {app : App} {p : Program}

theorem function_of_task {t : Ident} {k : Kind} {q : Nat} {args : List TaskArg} (h : TaskIs raw t k q args) : t ∈ raw.functions := by
  cases h with
  | _ => exact List.mem_filterMap.mpr ⟨_, by assumption, rfl⟩

theorem function_of_init {t : Ident} {args : List TaskArg} {ok : Bool} {us ul : Ident} (h : .init t args ok us ul ∈ raw.items) : t ∈ raw.functions :=
  List.mem_filterMap.mpr ⟨_, h, rfl⟩

/-- the function a definition belongs to -/
def owner : Def → Option Ident
  | .fn t | .module t | .context t | .declaredStatic t _ | .exec t | .spawn t | .waker t | .localSpawner t | .sharedStruct t | .localStruct t => some t
  | _ => none

/-- kind of a definition -/
def cls : Def → Nat
  | .main | .asyncMax | .rtErr | .userStruct _ => 0
  | .handler _ | .zeroDispatcher => 2
  | .sharedStatic _ => 3
  | .sharedMod => 4
  | .localStatic _ => 5
  | _ => 1

theorem cls_owner {d : Def} {t : Ident} (h : owner d = some t) : cls d = 1 := by
  cases d <;> first | rfl | (cases h; done)

theorem mem_forFn {t : Ident} {sh : Map Access} {lo : Map TaskLocal} {d : Def} (h : d ∈ forFn t sh lo) :
    d = .fn t ∨ d = .module t ∨ d = .context t ∨ d = .sharedStruct t ∨ d = .localStruct t := by
  unfold forFn at h
  split at h <;> split at h <;> simp at h <;> grind

theorem mem_forDeclared {t : Ident} {lo : Map TaskLocal} {d : Def} (h : d ∈ forDeclared t lo) : ∃ r ty, (r, .declared ty) ∈ lo ∧ d = .declaredStatic t r := by
  obtain ⟨⟨r, k⟩, hm, he⟩ := List.mem_filterMap.mp h
  cases k with
  | declared ty => cases he; exact ⟨r, ty, hm, rfl⟩
  | external => cases he

theorem mem_forSoftware {t : Ident} {s : SwTask} {d : Def} (h : d ∈ forSoftware app t s) : d = .exec t ∨ d = .spawn t ∨ d = .waker t ∨ d = .localSpawner t := by
  unfold forSoftware at h
  split at h <;> simp at h <;> grind

theorem nodup_forFn (t : Ident) (sh : Map Access) (lo : Map TaskLocal) : (forFn t sh lo).Nodup := by
  unfold forFn
  split <;> split <;> simp

theorem nodup_forDeclared (t : Ident) {lo : Map TaskLocal} (h : (lo.map Prod.fst).Nodup) : (forDeclared t lo).Nodup := by
  unfold forDeclared List.Nodup
  rw [List.pairwise_filterMap]
  rw [List.Nodup, List.pairwise_map] at h
  refine h.imp fun {a b} hne d hd d' hd' he => ?_
  obtain ⟨r, k⟩ := a
  obtain ⟨r', k'⟩ := b
  cases k <;> cases k' <;> cases hd <;> cases hd'
  cases he
  exact hne rfl

theorem nodup_forSoftware (t : Ident) (s : SwTask) : (forSoftware app t s).Nodup := by
  unfold forSoftware
  split <;> simp

theorem nodup_own (t : Ident) (sh : Map Access) {lo : Map TaskLocal} (h : (lo.map Prod.fst).Nodup) : (forFn t sh lo ++ forDeclared t lo).Nodup := by
  rw [List.nodup_append]
  refine ⟨nodup_forFn t sh lo, nodup_forDeclared t h, fun a ha b hb => ?_⟩
  obtain ⟨r, ty, -, rfl⟩ := mem_forDeclared hb
  rcases mem_forFn ha with rfl | rfl | rfl | rfl | rfl <;> simp

theorem owner_own {t : Ident} {sh : Map Access} {lo : Map TaskLocal} {d : Def} (h : d ∈ forFn t sh lo ++ forDeclared t lo) : owner d = some t := by
  rcases List.mem_append.mp h with h | h
  · rcases mem_forFn h with rfl | rfl | rfl | rfl | rfl <;> rfl
  · obtain ⟨r, ty, -, rfl⟩ := mem_forDeclared h; rfl

theorem owner_software {t : Ident} {s : SwTask} {d : Def} (h : d ∈ forSoftware app t s) : owner d = some t := by
  rcases mem_forSoftware h with rfl | rfl | rfl | rfl <;> rfl

/-- the parts of the list of definitions -/
inductive Part (app : App) (p : Program) : Def → Prop where
  | fixed {d} : d ∈ [Def.main, .asyncMax, .rtErr, .userStruct app.init.userShared, .userStruct app.init.userLocal] → Part app p d
  | init {d} : d ∈ forFn app.init.name [] app.init.locals ++ forDeclared app.init.name app.init.locals → Part app p d
  | idle {i d} : app.idle = some i → d ∈ forFn i.name i.shared i.locals ++ forDeclared i.name i.locals → Part app p d
  | vector {n t} : (n, t) ∈ app.hw → Part app p (.handler t.binds)
  | hw {n t d} : (n, t) ∈ app.hw → d ∈ forFn n t.shared t.locals ++ forDeclared n t.locals → Part app p d
  | sw {n t d} : (n, t) ∈ app.sw → d ∈ forFn n t.shared t.locals ++ forDeclared n t.locals → Part app p d
  | soft {n t d} : (n, t) ∈ app.sw → d ∈ forSoftware app n t → Part app p d
  | shared {r s} : (r, s) ∈ app.sharedRes → Part app p (.sharedStatic r)
  | sharedMod : Part app p .sharedMod
  | locals {r s} : (r, s) ∈ app.localRes → Part app p (.localStatic r)
  | disp {o q ts} : (o, q, ts) ∈ p.dispatchers → Part app p (dispatcherDef o)

theorem part_of_mem {d : Def} (h : d ∈ definitions app p) : Part app p d := by
  unfold definitions at h
  simp only [List.mem_append, List.append_assoc] at h
  rcases h with h | h | h | h | h | h | h | h | h | h
  · exact .fixed h
  · exact .init (List.mem_append.mpr (.inl h))
  · exact .init (List.mem_append.mpr (.inr h))
  · unfold forIdle at h
    split at h
    · exact .idle (by assumption) h
    · cases h
  · obtain ⟨⟨n, t⟩, hm, h⟩ := List.mem_flatMap.mp h
    rcases List.mem_cons.mp h with rfl | h
    · exact .vector hm
    · exact .hw hm h
  · obtain ⟨⟨n, t⟩, hm, h⟩ := List.mem_flatMap.mp h
    simp only [← List.append_assoc] at h
    rcases List.mem_append.mp h with h | h
    · exact .sw hm h
    · exact .soft hm h
  · obtain ⟨⟨n, t⟩, hm, rfl⟩ := List.mem_map.mp h
    exact .shared hm
  · split at h
    · cases h
    · cases List.mem_singleton.mp h; exact .sharedMod
  · obtain ⟨⟨n, t⟩, hm, rfl⟩ := List.mem_map.mp h
    exact .locals hm
  · obtain ⟨⟨o, q, ts⟩, hm, rfl⟩ := List.mem_map.mp h
    exact .disp hm

theorem init_item (hpa : parse raw = .ok app) : ∃ args ok, .init app.init.name args ok app.init.userShared app.init.userLocal ∈ raw.items := by
  obtain ⟨s, hi, e, -⟩ := parse_ok hpa
  obtain ⟨args, ok, h, -⟩ := (hi.init app.init).mp e
  exact ⟨args, ok, h⟩

theorem genuine_own {t : Ident} {sh : Map Access} {lo : Map TaskLocal} (ht : t ∈ raw.functions) (hl : ∀ r ty, (r, .declared ty) ∈ lo → DeclaresLocal raw t r)
    {d : Def} (h : d ∈ forFn t sh lo ++ forDeclared t lo) : Genuine raw d := by
  rcases List.mem_append.mp h with h | h
  · rcases mem_forFn h with rfl | rfl | rfl | rfl | rfl <;> exact ht
  · obtain ⟨r, ty, hm, rfl⟩ := mem_forDeclared h
    exact hl r ty hm

theorem declares {t : Ident} {k : Kind} {q : Nat} {args : List TaskArg} {sh : Map Access} {lo : Map TaskLocal} (ht : TaskIs raw t k q args) (ha : ArgsSay args sh lo) :
    ∀ r ty, (r, .declared ty) ∈ lo → DeclaresLocal raw t r := by
  intro r ty hm
  obtain ⟨l, h1, h2⟩ := (ha.locals _).mp hm
  exact ⟨args, l, ty, .inl ⟨k, q, ht⟩, h1, h2⟩

theorem genuine_of_part (hpa : parse raw = .ok app) (h : expand tg bits raw = .ok p) {d : Def} (hd : Part app p d) : Genuine raw d := by
  have hs := says_of_parse hpa
  obtain ⟨ia, iok, hinit⟩ := init_item hpa
  have C := C44_one_dispatcher_per_priority h
  cases hd with
  | fixed hm =>
    simp only [List.mem_cons, List.not_mem_nil, or_false] at hm
    rcases hm with rfl | rfl | rfl | rfl | rfl
    · trivial
    · trivial
    · trivial
    · exact ⟨_, _, _, _, _, hinit, .inl rfl⟩
    · exact ⟨_, _, _, _, _, hinit, .inr rfl⟩
  | init hm =>
    refine genuine_own (function_of_init hinit) (fun r ty hl => ?_) hm
    obtain ⟨args, ok, s, u, l, h1, h2, h3⟩ := (hs.initLocals _ _).mp hl
    exact ⟨args, l, ty, .inr ⟨ok, s, u, h1⟩, h2, h3⟩
  | idle hi hm =>
    obtain ⟨args, ht, ha⟩ := hs.idle _ hi
    exact genuine_own (function_of_task ht) (declares ht ha) hm
  | vector hm =>
    obtain ⟨args, ht, ha⟩ := hs.hw _ _ hm
    exact .inr ⟨_, _, _, ht⟩
  | hw hh hm =>
    obtain ⟨args, ht, ha⟩ := hs.hw _ _ hh
    exact genuine_own (function_of_task ht) (declares ht ha) hm
  | sw hh hm =>
    obtain ⟨args, ht, ha⟩ := hs.sw _ _ hh
    exact genuine_own (function_of_task ht) (declares ht ha) hm
  | soft hh hm =>
    obtain ⟨args, ht, ha⟩ := hs.sw _ _ hh
    rcases mem_forSoftware hm with rfl | rfl | rfl | rfl <;> exact ⟨_, _, ht⟩
  | shared => trivial
  | sharedMod => trivial
  | locals hm => exact ⟨_, (hs.localRes _ _).mp hm⟩
  | @disp o q ts hm =>
    cases o with
    | none => trivial
    | some v => exact .inl (C.2.2.2.1 v q ts hm).1

theorem nodup_parts {α : Type} (cls : α → Nat) {L0 L1 L2 L3 L4 L5 L6 L7 L8 : List α} (n0 : L0.Nodup) (n1 : L1.Nodup) (n2 : L2.Nodup) (n3 : L3.Nodup) (n4 : L4.Nodup) (n5 : L5.Nodup)
    (n6 : L6.Nodup) (n7 : L7.Nodup) (n8 : L8.Nodup) (d0 : ∀ d ∈ L0, cls d = 0) (d1 : ∀ d ∈ L1, cls d = 1) (d2 : ∀ d ∈ L2, cls d = 1)
    (d3 : ∀ d ∈ L3, cls d = 1 ∨ cls d = 2) (d4 : ∀ d ∈ L4, cls d = 1) (d5 : ∀ d ∈ L5, cls d = 3) (d6 : ∀ d ∈ L6, cls d = 4) (d7 : ∀ d ∈ L7, cls d = 5)
    (d8 : ∀ d ∈ L8, cls d = 2) (x12 : ∀ d ∈ L1, d ∉ L2) (x13 : ∀ d ∈ L1, d ∉ L3) (x14 : ∀ d ∈ L1, d ∉ L4) (x23 : ∀ d ∈ L2, d ∉ L3) (x24 : ∀ d ∈ L2, d ∉ L4)
    (x34 : ∀ d ∈ L3, d ∉ L4) (x38 : ∀ d ∈ L3, d ∉ L8) : (L0 ++ L1 ++ L2 ++ L3 ++ L4 ++ L5 ++ L6 ++ L7 ++ L8).Nodup := by
  have app' : ∀ {l l' : List α}, l.Nodup → l'.Nodup → (∀ d ∈ l, d ∉ l') → (l ++ l').Nodup :=
    fun h h' hx => List.nodup_append.mpr ⟨h, h', fun a ha b hb he => hx a ha (he ▸ hb)⟩
  refine app' (app' (app' (app' (app' (app' (app' (app' n0 n1 ?_) n2 ?_) n3 ?_) n4 ?_) n5 ?_) n6 ?_) n7 ?_) n8 ?_ <;> intro d hd hd' <;> (try simp only [List.mem_append] at hd) <;> clear n0 n1 n2 n3 n4 n5 n6 n7 n8 app'
  · grind
  · grind
  · grind
  · grind
  · grind
  · grind
  · grind
  · grind

theorem nodup_definitions {txt : Ident → Text} (hp : Plain txt raw) (hpa : parse raw = .ok app) (h : expand tg bits raw = .ok p) : (definitions app p).Nodup := by
  have hs := says_of_parse hpa
  obtain ⟨ia, iok, hinit⟩ := init_item hpa
  have C := C44_one_dispatcher_per_priority h
  have H := C44_dispatchers_not_hardware h
  obtain ⟨app', base, an, he⟩ := expand_ok h
  cases hpa.symm.trans he.parse
  have hg := codegen_ok he.codegen
  have hne := hp.structs _ _ _ _ _ hinit
  have hdisp : (p.dispatchers.map fun x => dispatcherDef x.1).Nodup := by
    rw [List.Nodup, List.pairwise_map]
    have : p.dispatchers.Pairwise fun x y => x.2.1 ≠ y.2.1 := by
      refine mapM_pairwise hg.disp (nodup_toSet) fun a a' b b' hne hb hb' => ?_
      obtain ⟨v, -, hb⟩ := bind_ok hb
      obtain ⟨v', -, hb'⟩ := bind_ok hb'
      cases hb; cases hb'
      exact hne
    refine this.imp_of_mem fun {x y} hx hy hq heq => ?_
    obtain ⟨o, q, ts⟩ := x
    obtain ⟨o', q', ts'⟩ := y
    cases o <;> cases o' <;> cases heq
    · exact hq ((C.2.2.2.2 _ _ hx).trans (C.2.2.2.2 _ _ hy).symm)
    · exact hq (C.2.2.1 _ _ _ _ _ hx hy)
  have hhw : (app.hw.flatMap fun x => .handler x.2.binds :: (forFn x.1 x.2.shared x.2.locals ++ forDeclared x.1 x.2.locals)).Nodup := by
    rw [List.Nodup, List.pairwise_flatMap]
    refine ⟨fun x hx => ?_, ?_⟩
    · rw [List.pairwise_cons]
      refine ⟨fun d hd he => ?_, nodup_own _ _ (hs.listsNodupHw _ _ hx).2⟩
      subst he; cases owner_own hd
    · have h1 := hs.nodupHw
      have h2 := hs.nodupB
      rw [List.Nodup, List.pairwise_map] at h1 h2
      refine (h1.and h2).imp fun {x y} hxy d hd d' hd' he => ?_
      subst he
      rcases List.mem_cons.mp hd with rfl | hd <;> rcases List.mem_cons.mp hd' with hd' | hd'
      · exact hxy.2 (Def.handler.inj hd')
      · cases owner_own hd'
      · subst hd'; cases owner_own hd
      · have := (owner_own hd).symm.trans (owner_own hd')
        exact hxy.1 (Option.some.inj this)
  have hsw : (app.sw.flatMap fun x => forFn x.1 x.2.shared x.2.locals ++ forDeclared x.1 x.2.locals ++ forSoftware app x.1 x.2).Nodup := by
    have own : ∀ {x : Ident × SwTask} {d}, d ∈ forFn x.1 x.2.shared x.2.locals ++ forDeclared x.1 x.2.locals ++ forSoftware app x.1 x.2 → owner d = some x.1 := by
      intro x d hd
      rcases List.mem_append.mp hd with hd | hd
      · exact owner_own hd
      · exact owner_software hd
    rw [List.Nodup, List.pairwise_flatMap]
    refine ⟨fun x hx => ?_, ?_⟩
    · rw [← List.Nodup, List.nodup_append]
      refine ⟨nodup_own _ _ (hs.listsNodup _ _ hx).2, nodup_forSoftware _ _, fun a ha b hb => ?_⟩
      rcases List.mem_append.mp ha with ha | ha
      · rcases mem_forFn ha with rfl | rfl | rfl | rfl | rfl <;> rcases mem_forSoftware hb with rfl | rfl | rfl | rfl <;> simp
      · obtain ⟨r, ty, -, rfl⟩ := mem_forDeclared ha
        rcases mem_forSoftware hb with rfl | rfl | rfl | rfl <;> simp
    · have h1 := hs.nodupSw
      rw [List.Nodup, List.pairwise_map] at h1
      refine h1.imp fun {x y} hxy d hd d' hd' he => ?_
      subst he
      exact hxy (Option.some.inj ((own hd).symm.trans (own hd')))
  have c0 : ∀ d ∈ [Def.main, .asyncMax, .rtErr, .userStruct app.init.userShared, .userStruct app.init.userLocal], cls d = 0 := by
    intro d hd
    simp only [List.mem_cons, List.not_mem_nil, or_false] at hd
    rcases hd with rfl | rfl | rfl | rfl | rfl <;> rfl
  have c1 : ∀ d ∈ forFn app.init.name [] app.init.locals ++ forDeclared app.init.name app.init.locals, owner d = some app.init.name := fun d hd => owner_own hd
  have c2 : ∀ d ∈ (forIdle app),
      ∃ i, app.idle = some i ∧ owner d = some i.name := by
    intro d hd
    unfold forIdle at hd
    split at hd
    next i hi => exact ⟨i, hi, owner_own hd⟩
    · cases hd
  have c3 : ∀ d ∈ (app.hw.flatMap fun x => .handler x.2.binds :: (forFn x.1 x.2.shared x.2.locals ++ forDeclared x.1 x.2.locals)),
      (∃ n t, (n, t) ∈ app.hw ∧ owner d = some n) ∨ ∃ n t, (n, t) ∈ app.hw ∧ d = .handler t.binds := by
    intro d hd
    obtain ⟨⟨n, t⟩, hm, hd⟩ := List.mem_flatMap.mp hd
    rcases List.mem_cons.mp hd with rfl | hd
    · exact .inr ⟨n, t, hm, rfl⟩
    · exact .inl ⟨n, t, hm, owner_own hd⟩
  have c4 : ∀ d ∈ (app.sw.flatMap fun x => forFn x.1 x.2.shared x.2.locals ++ forDeclared x.1 x.2.locals ++ forSoftware app x.1 x.2),
      ∃ n t, (n, t) ∈ app.sw ∧ owner d = some n := by
    intro d hd
    obtain ⟨⟨n, t⟩, hm, hd⟩ := List.mem_flatMap.mp hd
    rcases List.mem_append.mp hd with hd | hd
    · exact ⟨n, t, hm, owner_own hd⟩
    · exact ⟨n, t, hm, owner_software hd⟩
  have c5 : ∀ d ∈ (app.sharedRes.map fun x => Def.sharedStatic x.1), cls d = 3 := by
    intro d hd; obtain ⟨x, -, rfl⟩ := List.mem_map.mp hd; rfl
  have c6 : ∀ d ∈ (if p.mutexes.isEmpty then [] else [Def.sharedMod]), cls d = 4 := by
    intro d hd
    split at hd
    · cases hd
    · cases List.mem_singleton.mp hd; rfl
  have c7 : ∀ d ∈ (app.localRes.map fun x => Def.localStatic x.1), cls d = 5 := by
    intro d hd; obtain ⟨x, -, rfl⟩ := List.mem_map.mp hd; rfl
  have c8 : ∀ d ∈ (p.dispatchers.map fun x => dispatcherDef x.1), cls d = 2 ∧ ∀ n t, (n, t) ∈ app.hw → d ≠ .handler t.binds := by
    intro d hd
    obtain ⟨⟨o, q, ts⟩, hm, rfl⟩ := List.mem_map.mp hd
    cases o with
    | none => exact ⟨rfl, fun _ _ _ h => by cases h⟩
    | some v =>
      refine ⟨rfl, fun n t ht he => ?_⟩
      cases he
      obtain ⟨args, hT, -⟩ := hs.hw _ _ ht
      exact H.2.2 _ _ _ _ _ ((H.1 _ _ _).mpr ⟨_, hT⟩) hm
  have n1 := nodup_own app.init.name [] hs.initNodup
  have n2 : (forIdle app).Nodup := by
    unfold forIdle
    split
    next i hi => exact nodup_own _ _ (hs.listsNodupIdle _ hi).2
    · exact List.nodup_nil
  have n0 : [Def.main, .asyncMax, .rtErr, .userStruct app.init.userShared, .userStruct app.init.userLocal].Nodup := by simp [hne]
  have n5 : (app.sharedRes.map fun x => Def.sharedStatic x.1).Nodup := by
    have := hs.nodupS
    rw [List.Nodup, List.pairwise_map] at this ⊢
    exact this.imp fun hne he => hne (Def.sharedStatic.inj he)
  have n6 : (if p.mutexes.isEmpty then [] else [Def.sharedMod]).Nodup := by split <;> simp
  have n7 : (app.localRes.map fun x => Def.localStatic x.1).Nodup := by
    have := hs.nodupL
    rw [List.Nodup, List.pairwise_map] at this ⊢
    exact this.imp fun hne he => hne (Def.localStatic.inj he)
  unfold definitions
  generalize (app.hw.flatMap fun x => Def.handler x.2.binds :: (forFn x.1 x.2.shared x.2.locals ++ forDeclared x.1 x.2.locals)) = L3 at *
  generalize (app.sw.flatMap fun x => forFn x.1 x.2.shared x.2.locals ++ forDeclared x.1 x.2.locals ++ forSoftware app x.1 x.2) = L4 at *
  generalize (forIdle app) = L2 at *
  generalize (app.sharedRes.map fun x => Def.sharedStatic x.1) = L5 at *
  generalize (if p.mutexes.isEmpty then [] else [Def.sharedMod]) = L6 at *
  generalize (app.localRes.map fun x => Def.localStatic x.1) = L7 at *
  generalize (p.dispatchers.map fun x => dispatcherDef x.1) = L8 at *
  generalize [Def.main, .asyncMax, .rtErr, .userStruct app.init.userShared, .userStruct app.init.userLocal] = L0 at *
  have d1 : ∀ d ∈ forFn app.init.name [] app.init.locals ++ forDeclared app.init.name app.init.locals, cls d = 1 := fun d hd => cls_owner (c1 d hd)
  have d2 : ∀ d ∈ L2, cls d = 1 := fun d hd => by obtain ⟨_, _, h⟩ := c2 d hd; exact cls_owner h
  have d3 : ∀ d ∈ L3, cls d = 1 ∨ cls d = 2 := fun d hd => by
    rcases c3 d hd with ⟨_, _, _, h⟩ | ⟨_, _, _, rfl⟩
    · exact .inl (cls_owner h)
    · exact .inr rfl
  have d4 : ∀ d ∈ L4, cls d = 1 := fun d hd => by obtain ⟨_, _, _, h⟩ := c4 d hd; exact cls_owner h
  have x12 : ∀ d ∈ forFn app.init.name [] app.init.locals ++ forDeclared app.init.name app.init.locals, d ∉ L2 := by
    intro d h1 h2
    obtain ⟨i, hi, h⟩ := c2 d h2
    exact hs.initIdle i hi (Option.some.inj (h.symm.trans (c1 d h1)))
  have own3 : ∀ d ∈ L3, ∀ n, owner d = some n → ∃ t, (n, t) ∈ app.hw := by
    intro d hd n hn
    rcases c3 d hd with ⟨n', t, hm, h⟩ | ⟨_, _, _, rfl⟩
    · cases Option.some.inj (h.symm.trans hn); exact ⟨t, hm⟩
    · cases hn
  have x13 : ∀ d ∈ forFn app.init.name [] app.init.locals ++ forDeclared app.init.name app.init.locals, d ∉ L3 := by
    intro d h1 h2
    obtain ⟨t, ht⟩ := own3 d h2 _ (c1 d h1)
    exact hs.initHw t ht
  have x14 : ∀ d ∈ forFn app.init.name [] app.init.locals ++ forDeclared app.init.name app.init.locals, d ∉ L4 := by
    intro d h1 h2
    obtain ⟨n, t, hm, h⟩ := c4 d h2
    cases Option.some.inj (h.symm.trans (c1 d h1))
    exact hs.initSw t hm
  have x23 : ∀ d ∈ L2, d ∉ L3 := by
    intro d h1 h2
    obtain ⟨i, hi, h⟩ := c2 d h1
    obtain ⟨t, ht⟩ := own3 d h2 _ h
    exact hs.idleHw i t hi ht
  have x24 : ∀ d ∈ L2, d ∉ L4 := by
    intro d h1 h2
    obtain ⟨i, hi, h⟩ := c2 d h1
    obtain ⟨n, t, hm, h'⟩ := c4 d h2
    cases Option.some.inj (h'.symm.trans h)
    exact hs.idleSw i t hi hm
  have x34 : ∀ d ∈ L3, d ∉ L4 := by
    intro d h1 h2
    obtain ⟨n, t, hm, h'⟩ := c4 d h2
    obtain ⟨t', ht⟩ := own3 d h1 _ h'
    exact hs.hwSw _ _ _ ht hm
  have x38 : ∀ d ∈ L3, d ∉ L8 := by
    intro d h1 h2
    rcases c3 d h1 with ⟨n', t, hm, h⟩ | ⟨n, t, hm, rfl⟩
    · have := cls_owner h; have := (c8 d h2).1; omega
    · exact (c8 _ h2).2 n t hm rfl
  have d8 : ∀ d ∈ L8, cls d = 2 := fun d hd => (c8 d hd).1
  rw [List.append_assoc L0]
  exact nodup_parts cls n0 n1 n2 hhw hsw n5 n6 n7 hdisp c0 d1 d2 d3 d4 c5 c6 c7 d8 x12 x13 x14 x23 x24 x34 x38

/-- C86. In the module generated for an accepted application with plain names, no two definitions of the same namespace have the same name. -/
theorem C86_names_distinct_partial {txt : Ident → Text} (hp : Plain txt raw) (hpa : parse raw = .ok app) (h : expand tg bits raw = .ok p) :
    ((definitions app p).map fun d => (d.ns, d.name txt)).Nodup := by
  rw [List.Nodup, List.pairwise_map]
  refine (nodup_definitions hp hpa h).imp_of_mem fun {d d'} hd hd' hne he => ?_
  exact hne (name_inj hp (((C84_accepted_iff tg bits raw).mp ⟨p, h⟩).uses.localNew) (genuine_of_part hpa h (part_of_mem hd)) (genuine_of_part hpa h (part_of_mem hd')) (congrArg Prod.fst he) (congrArg Prod.snd he))

/-! ## Instances -/

/-- identifiers with given texts; the others are called `t_`, `t_x`, `t_xx`, .. -/
def texts (l : List (Ident × Text)) (i : Ident) : Text :=
  match l.find? (fun x => x.1 == i) with
  | some x => x.2
  | none => 't' :: '_' :: List.replicate i 'x'

theorem texts_inj {l : List (Ident × Text)} (hn : (l.map Prod.snd).Nodup) (ht : ∀ x ∈ l, ∀ c, x.2 ≠ 't' :: '_' :: c) : ∀ a b, texts l a = texts l b → a = b := by
  intro a b h
  unfold texts at h
  split at h <;> split at h
  next x hx _ y hy =>
    have ha := List.find?_some hx
    have hb := List.find?_some hy
    simp only [beq_iff_eq] at ha hb
    have : x = y := by
      have mx := List.mem_of_find?_eq_some hx
      have my := List.mem_of_find?_eq_some hy
      clear ha hb ht hx hy
      induction l with
      | nil => cases mx
      | cons z l ih =>
        rw [List.map_cons, List.nodup_cons] at hn
        rcases List.mem_cons.mp mx with rfl | hx <;> rcases List.mem_cons.mp my with rfl | hy
        · rfl
        · exact absurd (List.mem_map.mpr ⟨y, hy, h.symm⟩) hn.1
        · exact absurd (List.mem_map.mpr ⟨x, hx, h⟩) hn.1
        · exact ih hn.2 hx hy
    rw [← ha, ← hb, this]
  next x hx _ _ => exact absurd h (ht x (List.mem_of_find?_eq_some hx) _)
  next x hx => exact absurd h.symm (ht x (List.mem_of_find?_eq_some hx) _)
  next =>
    have := congrArg List.length h
    simp only [List.length_cons, List.length_replicate] at this
    exact Nat.add_right_cancel (Nat.add_right_cancel this)

/-- names of the application of C40 -/
def exNames : List (Ident × Text) :=
  [(1, "Shared".toList), (2, "Local".toList), (3, "init".toList), (4, "idle".toList), (10, "counter".toList), (13, "buffer".toList), (14, "state".toList), (20, "uart_rx".toList),
   (21, "uart_tx".toList), (22, "worker".toList), (23, "blink".toList), (24, "blink_fast".toList), (50, "SPI1".toList), (51, "SPI2".toList), (60, "UART0".toList), (61, "UART1".toList)]

theorem not_extends {x s : Text} (h : (x ++ ['_']).isPrefixOf s = false) : ¬ Extends x s := by
  rintro ⟨c, rfl⟩
  rw [Bool.eq_false_iff] at h
  exact h (by rw [List.isPrefixOf_iff_prefix]; exact ⟨c, by simp⟩)

theorem not_internal_prefix {s : Text} (h : internal.isPrefixOf s = false) : ¬ internal <+: s := by
  rw [Bool.eq_false_iff] at h
  exact fun hp => h (List.isPrefixOf_iff_prefix.mpr hp)

theorem exRaw_task {t : Ident} {k : Kind} {q : Nat} {args : List TaskArg} (h : TaskIs exRaw t k q args) :
    (k = .idle ∧ t = 4) ∨ (k = .hardware 60 ∧ t = 20) ∨ (k = .hardware 61 ∧ t = 21) ∨ (k = .software ∧ (t = 22 ∨ t = 23 ∨ t = 24)) := by
  cases h with
  | idle h => simp [exRaw] at h; simp [h]
  | hardware h hb _ =>
    simp [exRaw] at h
    rcases h with ⟨rfl, rfl, -⟩ | ⟨rfl, rfl, -⟩ | ⟨rfl, rfl, -⟩ | ⟨rfl, rfl, -⟩ | ⟨rfl, rfl, -⟩ <;> simp at hb <;> simp [hb]
  | software h hb _ =>
    simp [exRaw] at h
    rcases h with ⟨rfl, rfl, -⟩ | ⟨rfl, rfl, -⟩ | ⟨rfl, -⟩ | ⟨rfl, -⟩ | ⟨rfl, -⟩
    · exact absurd (.head _) (hb 60)
    · exact absurd (.head _) (hb 61)
    · simp
    · simp
    · simp

theorem exRaw_plain : Plain (texts exNames) exRaw := by
  have hf : ∀ i, i ∈ exRaw.functions → i ∈ [3, 4, 20, 21, 22, 23, 24] := by
    intro i hi; exact hi
  have hst : ∀ i, StructName exRaw i → i ∈ [1, 2] := by
    rintro i ⟨t, args, ok, us, ul, hm, h⟩
    simp [exRaw] at hm
    grind
  have hv : ∀ i, Vector exRaw i → i ∈ [50, 51, 60, 61] := by
    rintro i (h | ⟨t, q, args, h⟩)
    · simp [exRaw] at h; simp; grind
    · have := exRaw_task h
      simp at this ⊢; grind
  have hdl : ∀ t r, DeclaresLocal exRaw t r → t = 4 := by
    rintro t r ⟨args, l, ty, (⟨k, q, h⟩ | ⟨ok, s, u, h⟩), hm, hr⟩
    · cases h with
      | idle h => simp [exRaw] at h; simp [h]
      | hardware h hb _ =>
        simp [exRaw] at h
        rcases h with ⟨rfl, rfl, -⟩ | ⟨rfl, rfl, -⟩ | ⟨rfl, rfl, -⟩ | ⟨rfl, rfl, -⟩ | ⟨rfl, rfl, -⟩ <;> simp at hm
        subst hm; simp at hr
      | software h hb _ =>
        simp [exRaw] at h
        rcases h with ⟨rfl, rfl, -⟩ | ⟨rfl, rfl, -⟩ | ⟨rfl, rfl, -⟩ | ⟨rfl, rfl, -⟩ | ⟨rfl, rfl, -⟩ <;> simp at hm
        subst hm; simp at hr
    · simp [exRaw] at h; simp [h] at hm
  refine ⟨texts_inj (by decide +kernel) ?_, ?_, ?_, ?_, ?_, ?_, ?_, ?_⟩
  · intro x hx c
    simp only [exNames, List.mem_cons, List.not_mem_nil, or_false] at hx
    rcases hx with rfl | rfl | rfl | rfl | rfl | rfl | rfl | rfl | rfl | rfl | rfl | rfl | rfl | rfl | rfl | rfl <;> simp
  · intro t args ok us ul hm
    simp [exRaw] at hm
    grind
  · intro i hi
    have : i ∈ [3, 4, 20, 21, 22, 23, 24, 1, 2, 50, 51, 60, 61] := by
      rcases hi with h | h | h
      · have := hf i h; simp at this ⊢; grind
      · have := hst i h; simp at this ⊢; grind
      · have := hv i h; simp at this ⊢; grind
    have key : ∀ i ∈ [3, 4, 20, 21, 22, 23, 24, 1, 2, 50, 51, 60, 61], internal.isPrefixOf (texts exNames i) = false ∧ texts exNames i ∉ reservedNames := by decide +kernel
    exact ⟨not_internal_prefix (key i this).1, (key i this).2⟩
  · intro t h h'
    have := hf t h
    have := hv t h'
    simp at *
    grind
  · intro t h h'
    have := hf t h
    have := hst t h'
    simp at *
    grind
  · intro t q args h
    have := exRaw_task h
    have key : ∀ t ∈ [22, 23, 24], texts exNames t ≠ "shared_resource".toList ∧ ("shared_resource".toList ++ ['_']).isPrefixOf (texts exNames t) = false ∧
        ("local".toList ++ ['_']).isPrefixOf (texts exNames t) = false := by decide +kernel
    have := key t (by simp at this ⊢; grind)
    exact ⟨this.1, not_extends this.2.1, not_extends this.2.2⟩
  · intro t r h
    cases hdl t r h
    exact not_extends (by decide +kernel)
  · intro t r t' r' h h'
    cases hdl t r h
    cases hdl t' r' h'
    exact not_extends (by decide +kernel)

example : ∃ app, parse exRaw = .ok app ∧ ((definitions app exProg).map fun d => (d.ns, d.name (texts exNames))).Nodup ∧ (definitions app exProg).length = 54 := by
  obtain ⟨app, base, an, he⟩ := expand_ok exRaw_accepted
  refine ⟨app, he.parse, C86_names_distinct_partial exRaw_plain he.parse exRaw_accepted, ?_⟩
  have : (parse exRaw).toOption.map (fun a => (definitions a exProg).length) = some 54 := by decide +kernel
  rw [he.parse] at this
  exact Option.some.inj this

/-! ## Names that are in each other's way

Four applications that are accepted although two definitions of the generated module have the same name (so that the compiler refuses the module, with a message about a name the user has not written). -/

/-- text of the identifiers is injective, the application is accepted, two definitions have the same name -/
def Clash (txt : Ident → Text) (raw : Raw) : Prop :=
  (∀ a b, txt a = txt b → a = b) ∧ ∃ app p, parse raw = .ok app ∧ expand exTarget 4 raw = .ok p ∧ ¬ ((definitions app p).map fun d => (d.ns, d.name txt)).Nodup

def clashNames : List (Ident × Text) :=
  [(1, "Shared".toList), (2, "Local".toList), (3, "init".toList), (10, "x".toList), (11, "c".toList), (12, "b_c".toList), (13, "spawn".toList),
   (14, "a_x".toList), (20, "resource_a".toList), (21, "a_b".toList), (22, "a".toList), (23, "shared_resource".toList), (50, "SPI1".toList), (60, "UART0".toList), (61, "UART1".toList)]

/-- a task `resource_a` that declares a local resource `x`, and a field `a_x` of the `#[local]` struct -/
def rawResource : Raw :=
  { dispatchers := [], items := [.sharedStruct 1 [], .localStruct 2 [(14, 100)], .init 3 [] true 1 2, .task 20 [.binds 60, .locals [(10, .declared 100)]] false [] true, .task 22 [.binds 61, .locals [(14, .external)]] false [] true] }

/-- tasks `a_b` and `a` that declare `c` and `b_c` -/
def rawUnderscore : Raw :=
  { dispatchers := [], items := [.sharedStruct 1 [], .localStruct 2 [], .init 3 [] true 1 2, .task 21 [.binds 60, .locals [(11, .declared 100)]] false [] true, .task 22 [.binds 61, .locals [(12, .declared 100)]] false [] true] }

/-- a software task `shared_resource` and a shared resource `spawn` -/
def rawSpawn : Raw :=
  { dispatchers := [50], items := [.sharedStruct 1 [(13, { ty := 100, lockFree := false })], .localStruct 2 [], .init 3 [] true 1 2, .task 23 [.priority 1, .shared [(13, .exclusive)]] true [] true] }

/-- a task called like the interrupt it is bound to -/
def rawVector : Raw :=
  { dispatchers := [], items := [.sharedStruct 1 [], .localStruct 2 [], .init 3 [] true 1 2, .task 60 [.binds 60] false [] true] }

theorem clash_of {l : List (Ident × Text)} {raw : Raw} (h1 : (l.map Prod.snd).Nodup) (h2 : ∀ x ∈ l, ['t', '_'].isPrefixOf x.2 = false)
    (h3 : (match parse raw, expand exTarget 4 raw with
      | .ok app, .ok p => decide (((definitions app p).map fun d => (d.ns, d.name (texts l))).Nodup) | _, _ => true) = false) : Clash (texts l) raw := by
  refine ⟨texts_inj h1 fun x hx c hc => ?_, ?_⟩
  · have := h2 x hx
    rw [hc] at this; simp at this
  · split at h3
    next app p ha hp => exact ⟨app, p, ha, hp, of_decide_eq_false h3⟩
    · cases h3

/-- The claim is false without conditions on names: a task `resource_a` declaring `x` and a field `a_x`. -/
theorem C86_resource_violated : Clash (texts clashNames) rawResource := clash_of (by decide +kernel) (by decide +kernel) (by decide +kernel)

/-- .. tasks `a_b` and `a` declaring `c` and `b_c` .. -/
theorem C86_underscore_violated : Clash (texts clashNames) rawUnderscore := clash_of (by decide +kernel) (by decide +kernel) (by decide +kernel)

/-- .. a software task `shared_resource` with a shared resource `spawn` .. -/
theorem C86_spawn_violated : Clash (texts clashNames) rawSpawn := clash_of (by decide +kernel) (by decide +kernel) (by decide +kernel)

/-- .. and a task with the name of an interrupt in use. -/
theorem C86_vector_violated : Clash (texts clashNames) rawVector := clash_of (by decide +kernel) (by decide +kernel) (by decide +kernel)

end Verif.Names
