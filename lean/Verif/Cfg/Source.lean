import Verif.Cfg.Model
import Verif.Analysis.AcceptProps
import Verif.EndToEnd.Props

/-!
# The application with parts deleted, and the application itself
-/

namespace Verif.Cfg

open Verif.Analysis

variable {on : Switch} {raw : Raw}

theorem arg_kind {t : Ident} {a b : TaskArg} (h : on.arg t a = some b) : b.kind = a.kind := by
  cases a <;> simp only [Switch.arg, Option.some.injEq] at h
  case locals l => split at h <;> cases h; rfl
  all_goals subst h; rfl

theorem mem_binds {t b : Ident} {args : List TaskArg} : .binds b ∈ args.filterMap (on.arg t) ↔ .binds b ∈ args := by
  rw [List.mem_filterMap]
  constructor
  · rintro ⟨a, ha, he⟩
    cases a <;> simp only [Switch.arg, Option.some.injEq] at he
    case locals l => split at he <;> cases he
    all_goals cases he
    exact ha
  · intro h; exact ⟨_, h, rfl⟩

theorem mem_priority {t : Ident} {n : Nat} {args : List TaskArg} : .priority n ∈ args.filterMap (on.arg t) ↔ .priority n ∈ args := by
  rw [List.mem_filterMap]
  constructor
  · rintro ⟨a, ha, he⟩
    cases a <;> simp only [Switch.arg, Option.some.injEq] at he
    case locals l => split at he <;> cases he
    all_goals cases he
    exact ha
  · intro h; exact ⟨_, h, rfl⟩

theorem mem_localTask {t : Ident} {b : Bool} {args : List TaskArg} : .localTask b ∈ args.filterMap (on.arg t) ↔ .localTask b ∈ args := by
  rw [List.mem_filterMap]
  constructor
  · rintro ⟨a, ha, he⟩
    cases a <;> simp only [Switch.arg, Option.some.injEq] at he
    case locals l => split at he <;> cases he
    all_goals cases he
    exact ha
  · intro h; exact ⟨_, h, rfl⟩

theorem mem_other {t : Ident} {args : List TaskArg} : .other ∈ args.filterMap (on.arg t) ↔ .other ∈ args := by
  rw [List.mem_filterMap]
  constructor
  · rintro ⟨a, ha, he⟩
    cases a <;> simp only [Switch.arg, Option.some.injEq] at he
    case locals l => split at he <;> cases he
    all_goals cases he
    exact ha
  · intro h; exact ⟨_, h, rfl⟩

theorem mem_shared {t : Ident} {l : List (Ident × Access)} {args : List TaskArg} :
    .shared l ∈ args.filterMap (on.arg t) ↔ ∃ l', .shared l' ∈ args ∧ l = l'.filter fun x => on.shared x.1 := by
  rw [List.mem_filterMap]
  constructor
  · rintro ⟨a, ha, he⟩
    cases a <;> simp only [Switch.arg, Option.some.injEq] at he
    case locals l => split at he <;> cases he
    case shared l' => cases he; exact ⟨l', ha, rfl⟩
    all_goals cases he
  · rintro ⟨l', h, rfl⟩; exact ⟨_, h, rfl⟩

theorem mem_locals {t : Ident} {l : List (Ident × TaskLocal)} {args : List TaskArg} :
    .locals l ∈ args.filterMap (on.arg t) ↔ l ≠ [] ∧ ∃ l', .locals l' ∈ args ∧ l = l'.filter (on.hasLocal t) := by
  rw [List.mem_filterMap]
  constructor
  · rintro ⟨a, ha, he⟩
    cases a <;> simp only [Switch.arg, Option.some.injEq] at he
    case locals l' =>
      split at he
      · cases he
      · next hne => cases he; exact ⟨hne, l', ha, rfl⟩
    all_goals cases he
  · rintro ⟨hne, l', h, rfl⟩
    exact ⟨_, h, by simp only [Switch.arg]; rw [if_neg hne]⟩

theorem hasPriority {t : Ident} {args : List TaskArg} {q : Nat} : HasPriority (args.filterMap (on.arg t)) q ↔ HasPriority args q := by
  simp only [HasPriority, mem_priority, mem_binds]

theorem mem_items {x : Item} : x ∈ (on.source raw).items ↔ ∃ y ∈ raw.items, on.item y = some x := by
  simp only [Switch.source, List.mem_filterMap]

theorem mem_init {t : Ident} {args : List TaskArg} {ok : Bool} {us ul : Ident} :
    .init t args ok us ul ∈ (on.source raw).items ↔ ∃ args', .init t args' ok us ul ∈ raw.items ∧ args = args'.filterMap (on.arg t) := by
  rw [mem_items]
  constructor
  · rintro ⟨y, hy, he⟩
    cases y <;> simp only [Switch.item, Option.some.injEq] at he
    case task => split at he <;> cases he
    case init => cases he; exact ⟨_, hy, rfl⟩
    all_goals cases he
  · rintro ⟨args', h, rfl⟩; exact ⟨_, h, rfl⟩

theorem mem_idle {t : Ident} {args : List TaskArg} {ok : Bool} :
    .idle t args ok ∈ (on.source raw).items ↔ ∃ args', .idle t args' ok ∈ raw.items ∧ args = args'.filterMap (on.arg t) := by
  rw [mem_items]
  constructor
  · rintro ⟨y, hy, he⟩
    cases y <;> simp only [Switch.item, Option.some.injEq] at he
    case task => split at he <;> cases he
    case idle => cases he; exact ⟨_, hy, rfl⟩
    all_goals cases he
  · rintro ⟨args', h, rfl⟩; exact ⟨_, h, rfl⟩

theorem mem_task {t : Ident} {args : List TaskArg} {as : Bool} {ins : List Ty} {ok : Bool} :
    .task t args as ins ok ∈ (on.source raw).items ↔ on.task t = true ∧ ∃ args', .task t args' as ins ok ∈ raw.items ∧ args = args'.filterMap (on.arg t) := by
  rw [mem_items]
  constructor
  · rintro ⟨y, hy, he⟩
    cases y <;> simp only [Switch.item, Option.some.injEq] at he
    case task =>
      split at he
      · next hon => cases he; exact ⟨hon, _, hy, rfl⟩
      · cases he
    all_goals cases he
  · rintro ⟨hon, args', h, rfl⟩; exact ⟨_, h, by simp only [Switch.item, hon, if_true]⟩

theorem sharedStructs_source : (on.source raw).sharedStructs = raw.sharedStructs.map fun s => (s.1, s.2.filter fun x => on.shared x.1) := by
  simp only [Raw.sharedStructs, Switch.source, List.filterMap_filterMap, List.map_filterMap]
  congr 1
  funext x
  cases x <;> simp only [Switch.item, Option.bind_some, Option.map_some, Option.map_none]
  split <;> rfl

theorem localStructs_source : (on.source raw).localStructs = raw.localStructs.map fun s => (s.1, s.2.filter fun x => on.locals x.1) := by
  simp only [Raw.localStructs, Switch.source, List.filterMap_filterMap, List.map_filterMap]
  congr 1
  funext x
  cases x <;> simp only [Switch.item, Option.bind_some, Option.map_some, Option.map_none]
  split <;> rfl

theorem functions_source : ((on.source raw).functions).Sublist raw.functions := by
  simp only [Raw.functions, Switch.source]
  induction raw.items with
  | nil => exact .slnil
  | cons x l ih =>
    cases x <;> simp only [List.filterMap_cons, Switch.item]
    case task t _ _ _ _ =>
      cases on.task t
      · exact ih.cons _
      · exact ih.cons_cons _
    case init => exact ih.cons_cons _
    case idle => exact ih.cons_cons _
    all_goals exact ih

theorem sharedField_source {r : Ident} {res : SharedRes} : SharedField (on.source raw) r res ↔ SharedField raw r res ∧ on.shared r = true := by
  constructor
  · rintro ⟨i, f, hm, hr⟩
    obtain ⟨y, hy, he⟩ := mem_items.mp hm
    cases y <;> simp only [Switch.item, Option.some.injEq] at he
    case task => split at he <;> cases he
    case sharedStruct i' f' =>
      cases he
      obtain ⟨h1, h2⟩ := List.mem_filter.mp hr
      exact ⟨⟨_, _, hy, h1⟩, h2⟩
    all_goals cases he
  · rintro ⟨⟨i, f, hm, hr⟩, hon⟩
    exact ⟨i, _, mem_items.mpr ⟨_, hm, rfl⟩, List.mem_filter.mpr ⟨hr, hon⟩⟩

theorem localField_source {r : Ident} {ty : Ty} : LocalField (on.source raw) r ty ↔ LocalField raw r ty ∧ on.locals r = true := by
  constructor
  · rintro ⟨i, f, hm, hr⟩
    obtain ⟨y, hy, he⟩ := mem_items.mp hm
    cases y <;> simp only [Switch.item, Option.some.injEq] at he
    case task => split at he <;> cases he
    case localStruct i' f' =>
      cases he
      obtain ⟨h1, h2⟩ := List.mem_filter.mp hr
      exact ⟨⟨_, _, hy, h1⟩, h2⟩
    all_goals cases he
  · rintro ⟨⟨i, f, hm, hr⟩, hon⟩
    exact ⟨i, _, mem_items.mpr ⟨_, hm, rfl⟩, List.mem_filter.mpr ⟨hr, hon⟩⟩

/-- the tasks of the application without the deleted parts -/
theorem taskIs_source {t : Ident} {k : Kind} {q : Nat} {args : List TaskArg} :
    TaskIs (on.source raw) t k q args ↔ (k = .idle ∨ on.task t = true) ∧ ∃ args', TaskIs raw t k q args' ∧ args = args'.filterMap (on.arg t) := by
  constructor
  · intro h
    cases h with
    | idle h => obtain ⟨a, h1, rfl⟩ := mem_idle.mp h; exact ⟨.inl rfl, a, .idle h1, rfl⟩
    | hardware h hb hp => obtain ⟨hon, a, h1, rfl⟩ := mem_task.mp h; exact ⟨.inr hon, a, .hardware h1 (mem_binds.mp hb) (hasPriority.mp hp), rfl⟩
    | software h hb hp => obtain ⟨hon, a, h1, rfl⟩ := mem_task.mp h; exact ⟨.inr hon, a, .software h1 (fun b hm => hb b (mem_binds.mpr hm)) (hasPriority.mp hp), rfl⟩
  · rintro ⟨hon, a, h, rfl⟩
    cases h with
    | idle h => exact .idle (mem_idle.mpr ⟨_, h, rfl⟩)
    | hardware h hb hp =>
      rcases hon with hk | hon
      · cases hk
      · exact .hardware (mem_task.mpr ⟨hon, _, h, rfl⟩) (mem_binds.mpr hb) (hasPriority.mpr hp)
    | software h hb hp =>
      rcases hon with hk | hon
      · cases hk
      · exact .software (mem_task.mpr ⟨hon, _, h, rfl⟩) (fun b hm => hb b (mem_binds.mp hm)) (hasPriority.mpr hp)

theorem usesShared_source {t : Ident} {q : Nat} {r : Ident} {a : Access} (h : UsesShared (on.source raw) t q r a) : UsesShared raw t q r a ∧ on.shared r = true := by
  obtain ⟨k, args, l, ht, hl, hm⟩ := h
  obtain ⟨-, args', ht', rfl⟩ := taskIs_source.mp ht
  obtain ⟨l', hl', rfl⟩ := mem_shared.mp hl
  obtain ⟨h1, h2⟩ := List.mem_filter.mp hm
  exact ⟨⟨k, args', l', ht', hl', h1⟩, h2⟩

theorem usesLocal_source {t : Ident} {q : Nat} {r : Ident} (h : UsesLocal (on.source raw) t q r) : UsesLocal raw t q r ∧ on.locals r = true := by
  obtain ⟨k, args, l, ht, hl, hm⟩ := h
  obtain ⟨-, args', ht', rfl⟩ := taskIs_source.mp ht
  obtain ⟨-, l', hl', rfl⟩ := mem_locals.mp hl
  obtain ⟨h1, h2⟩ := List.mem_filter.mp hm
  exact ⟨⟨k, args', l', ht', hl', h1⟩, h2⟩

theorem declaresLocal_source {t : Ident} {r : Ident} (h : DeclaresLocal (on.source raw) t r) : DeclaresLocal raw t r := by
  obtain ⟨args, l, ty, ht, hl, hm⟩ := h
  rcases ht with ⟨k, p, ht⟩ | ⟨ok, s, u, ht⟩
  · obtain ⟨-, args', ht', rfl⟩ := taskIs_source.mp ht
    obtain ⟨-, l', hl', rfl⟩ := mem_locals.mp hl
    exact ⟨args', l', ty, .inl ⟨k, p, ht'⟩, hl', (List.mem_filter.mp hm).1⟩
  · obtain ⟨args', ht', rfl⟩ := mem_init.mp ht
    obtain ⟨-, l', hl', rfl⟩ := mem_locals.mp hl
    exact ⟨args', l', ty, .inr ⟨ok, s, u, ht'⟩, hl', (List.mem_filter.mp hm).1⟩

theorem kinds_sublist {t : Ident} (args : List TaskArg) : ((args.filterMap (on.arg t)).map TaskArg.kind).Sublist (args.map TaskArg.kind) := by
  induction args with
  | nil => exact .slnil
  | cons a l ih =>
    rw [List.filterMap_cons]
    split
    · exact ih.cons _
    · next b hb => rw [List.map_cons, List.map_cons, arg_kind hb]; exact ih.cons_cons _

theorem argsValid_source {t : Ident} {args : List TaskArg} (h : ArgsValid args) : ArgsValid (args.filterMap (on.arg t)) where
  once := h.once.sublist (kinds_sublist args)
  known := fun hm => h.known (mem_other.mp hm)
  priority := fun n hm => h.priority n (mem_priority.mp hm)
  shared := fun l hm => by
    obtain ⟨l', hl', rfl⟩ := mem_shared.mp hm
    exact (h.shared l' hl').sublist (List.filter_sublist.map _)
  locals := fun l hm => by
    obtain ⟨hne, l', hl', rfl⟩ := mem_locals.mp hm
    exact ⟨hne, (h.locals l' hl').2.sublist (List.filter_sublist.map _)⟩

theorem structsValid_source {α : Type} {structs : List (Ident × List (Ident × α))} {n : Ident} (f : Ident × α → Bool) (h : StructsValid structs n) :
    StructsValid (structs.map fun s => (s.1, s.2.filter f)) n := by
  obtain ⟨u, fs, rfl, h1, h2⟩ := h
  refine ⟨u.map fun s => (s.1, s.2.filter f), fs.filter f, by simp, ?_, h2.sublist (List.filter_sublist.map _)⟩
  intro s hs
  obtain ⟨s', hs', rfl⟩ := List.mem_map.mp hs
  simp [h1 s' hs']

theorem itemsValid_source (h : ItemsValid raw) : ItemsValid (on.source raw) where
  init := by
    obtain ⟨t, args, us, ul, hm, ha, hl, h1, h2⟩ := h.init
    refine ⟨t, _, us, ul, mem_init.mpr ⟨args, hm, rfl⟩, argsValid_source ha, ?_, sharedStructs_source ▸ structsValid_source _ h1, localStructs_source ▸ structsValid_source _ h2⟩
    intro a hm
    obtain ⟨b, hb, he⟩ := List.mem_filterMap.mp hm
    obtain ⟨l, rfl, hr⟩ := hl b hb
    simp only [Switch.arg] at he
    split at he <;> cases he
    exact ⟨_, rfl, fun r hm => hr r (List.mem_filter.mp hm).1⟩
  inits := by
    intro t args ok us ul t' args' ok' us' ul' h1 h2
    obtain ⟨_, h1, -⟩ := mem_init.mp h1
    obtain ⟨_, h2, -⟩ := mem_init.mp h2
    exact h.inits _ _ _ _ _ _ _ _ _ _ h1 h2
  idles := by
    intro t args ok t' args' ok' h1 h2
    obtain ⟨_, h1, -⟩ := mem_idle.mp h1
    obtain ⟨_, h2, -⟩ := mem_idle.mp h2
    exact h.idles _ _ _ _ _ _ h1 h2
  idle := by
    intro t args ok hm
    obtain ⟨args', hm', rfl⟩ := mem_idle.mp hm
    obtain ⟨h1, h2, h3⟩ := h.idle _ _ _ hm'
    refine ⟨h1, argsValid_source h2, fun a ha => ?_⟩
    obtain ⟨b, hb, he⟩ := List.mem_filterMap.mp ha
    rcases h3 b hb with ⟨l, rfl⟩ | ⟨l, rfl⟩ <;> simp only [Switch.arg] at he
    · cases he; exact .inl ⟨_, rfl⟩
    · split at he <;> cases he; exact .inr ⟨_, rfl⟩
  task := by
    intro t args as ins ok hm
    obtain ⟨-, args', hm', rfl⟩ := mem_task.mp hm
    obtain ⟨h1, h2, h3, h4⟩ := h.task _ _ _ _ _ hm'
    simp only [mem_binds, mem_priority]
    exact ⟨h1, argsValid_source h2, h3, h4⟩
  names := h.names.sublist functions_source
  binds := by
    intro t t' v q q' args args' h1 h2
    obtain ⟨-, _, h1, -⟩ := taskIs_source.mp h1
    obtain ⟨-, _, h2, -⟩ := taskIs_source.mp h2
    exact h.binds _ _ _ _ _ _ _ h1 h2
  dispatchers := h.dispatchers

theorem usesValid_source (h : UsesValid raw) : UsesValid (on.source raw) where
  shared := by
    intro t q r a hu
    obtain ⟨h1, h2⟩ := usesShared_source hu
    obtain ⟨res, hr⟩ := h.shared _ _ _ _ h1
    exact ⟨res, sharedField_source.mpr ⟨hr, h2⟩⟩
  locals := by
    intro t q r hu
    obtain ⟨h1, h2⟩ := usesLocal_source hu
    obtain ⟨ty, hr⟩ := h.locals _ _ _ h1
    exact ⟨ty, localField_source.mpr ⟨hr, h2⟩⟩
  access := fun t q r a t' q' a' h1 h2 => h.access _ _ _ _ _ _ _ (usesShared_source h1).1 (usesShared_source h2).1
  lockFree := by
    intro r res hf hl
    obtain ⟨h1, h2⟩ := h.lockFree r res (sharedField_source.mp hf).1 hl
    refine ⟨fun t q a t' q' a' u1 u2 => h1 _ _ _ _ _ _ (usesShared_source u1).1 (usesShared_source u2).1, fun t q a args ht hu => ?_⟩
    obtain ⟨-, args', ht, -⟩ := taskIs_source.mp ht
    exact h2 _ _ _ _ ht (usesShared_source hu).1
  localOnce := fun r ty t q t' q' hf h1 h2 => h.localOnce r ty _ _ _ _ (localField_source.mp hf).1 (usesLocal_source h1).1 (usesLocal_source h2).1
  localNew := fun r ty t hf hd => h.localNew r ty t (localField_source.mp hf).1 (declaresLocal_source hd)
  zero := by
    intro t args t' q' args' h1 h2
    obtain ⟨-, _, h1, -⟩ := taskIs_source.mp h1
    obtain ⟨-, _, h2, -⟩ := taskIs_source.mp h2
    exact h.zero _ _ _ _ _ h1 h2
  separate := by
    intro t v q args h1
    obtain ⟨-, _, h1, -⟩ := taskIs_source.mp h1
    exact h.separate _ _ _ _ h1

theorem valid_source {tg : Target} {bits : Nat} (h : Valid tg bits raw) : Valid tg bits (on.source raw) where
  items := itemsValid_source h.items
  uses := usesValid_source h.uses
  enough := by
    intro ps hn hp
    refine h.enough ps hn fun q hq => ?_
    obtain ⟨h1, t, args, ht⟩ := hp q hq
    obtain ⟨-, args', ht, -⟩ := taskIs_source.mp ht
    exact ⟨h1, t, args', ht⟩
  dispatchers := h.dispatchers
  bound := by
    intro t v q args ht
    obtain ⟨-, _, ht, -⟩ := taskIs_source.mp ht
    exact h.bound _ _ _ _ ht
  priorities := by
    intro t k q args ht
    obtain ⟨-, _, ht, -⟩ := taskIs_source.mp ht
    exact h.priorities _ _ _ _ ht

end Verif.Cfg
