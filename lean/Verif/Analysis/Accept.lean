import Verif.Analysis.AcceptSpec
import Verif.Analysis.TargetProps

/-! # Which applications are accepted: lemmas for C84 -/

namespace Verif.Analysis

theorem foldlM_exists {α β : Type} {f : β → α → Res β} (P : List α → β → Prop) (hstep : ∀ l a b b', P l b → f b a = .ok b' → P (l ++ [a]) b') {l pre : List α} {b : β} (h0 : P pre b)
    (h : ∀ pre' a post b, pre ++ l = pre' ++ a :: post → P pre' b → ∃ b', f b a = .ok b') : ∃ b', l.foldlM f b = .ok b' := by
  induction l generalizing b pre with
  | nil => exact ⟨b, rfl⟩
  | cons a l ih =>
    obtain ⟨b1, h1⟩ := h pre a l b rfl h0
    rw [List.foldlM_cons, bind_eq h1]
    exact ih (hstep _ _ _ _ h0 h1) fun pre' a' post b' he hp => h pre' a' post b' (by rw [← he]; simp) hp

theorem foldlM_restrict {α β : Type} {f g : β → α → Res β} (ok : α → Prop) (h1 : ∀ b a, ok a → g b a = f b a) (h2 : ∀ b a b', g b a = .ok b' → ok a) {l : List α} {b b' : β} :
    l.foldlM g b = .ok b' ↔ (∀ a ∈ l, ok a) ∧ l.foldlM f b = .ok b' := by
  induction l generalizing b with
  | nil => simp [List.foldlM]
  | cons a l ih =>
    rw [List.foldlM_cons, List.foldlM_cons]
    constructor
    · intro h
      obtain ⟨b1, hb, h⟩ := bind_ok h
      have ha := h2 _ _ _ hb
      rw [h1 _ _ ha] at hb
      obtain ⟨i1, i2⟩ := ih.mp h
      refine ⟨?_, by rw [bind_eq hb]; exact i2⟩
      intro x hx
      rcases List.mem_cons.mp hx with rfl | hx
      · exact ha
      · exact i1 x hx
    · rintro ⟨h, h'⟩
      obtain ⟨b1, hb, h'⟩ := bind_ok h'
      rw [← h1 _ _ (h a List.mem_cons_self)] at hb
      rw [bind_eq hb]
      exact ih.mpr ⟨fun x hx => h x (List.mem_cons_of_mem _ hx), h'⟩

theorem insertNew_total {α : Type} {e : Err} {m : Map α} {kv : Ident × α} (h : kv.1 ∉ m.map Prod.fst) : insertNew e m kv = .ok (m ++ [kv]) := by
  unfold insertNew
  rw [has_false.mpr h]; rfl

theorem foldlM_insertNew_total {α : Type} {e : Err} {l : List (Ident × α)} {m : Map α} (h : ((m ++ l).map Prod.fst).Nodup) : l.foldlM (insertNew e) m = .ok (m ++ l) := by
  induction l generalizing m with
  | nil => simp [List.foldlM]; rfl
  | cons a l ih =>
    have hna : a.1 ∉ m.map Prod.fst := by
      rw [List.map_append, List.nodup_append] at h
      intro hm
      exact h.2.2 _ hm _ (by simp) rfl
    rw [List.foldlM_cons, bind_eq (insertNew_total hna), ih (by simpa using h)]
    simp

/-! ## arguments -/

theorem parseShared_iff {l : List (Ident × Access)} {m : Map Access} : parseShared l = .ok m ↔ m = l ∧ (l.map Prod.fst).Nodup := by
  constructor
  · intro h; obtain ⟨rfl, hn⟩ := parseShared_ok h; exact ⟨rfl, hn⟩
  · rintro ⟨rfl, h⟩; exact foldlM_insertNew_total (m := []) (by simpa using h)

theorem parseLocals_iff {l : List (Ident × TaskLocal)} {m : Map TaskLocal} : parseLocals l = .ok m ↔ m = l ∧ l ≠ [] ∧ (l.map Prod.fst).Nodup := by
  constructor
  · intro h
    obtain ⟨rfl, hn⟩ := parseLocals_ok h
    refine ⟨rfl, ?_, hn⟩
    rintro rfl
    cases h
  · rintro ⟨rfl, h, hn⟩
    unfold parseLocals
    have := foldlM_insertNew_total (e := .resourceTwice) (m := []) (l := m) (by simpa using hn)
    rw [bind_eq this]
    cases m with
    | nil => exact absurd rfl h
    | cons a m => rfl

/-- what one argument has to satisfy -/
def ArgNext (args : List TaskArg) (a : TaskArg) : Prop :=
  a.kind ∉ args.map TaskArg.kind ∧ a ≠ .other ∧ (∀ n, a = .priority n → n ≤ 255) ∧ (∀ l, a = .shared l → (l.map Prod.fst).Nodup) ∧ ∀ l, a = .locals l → l ≠ [] ∧ (l.map Prod.fst).Nodup

theorem argsValid_snoc {args : List TaskArg} {a : TaskArg} : ArgsValid (args ++ [a]) ↔ ArgsValid args ∧ ArgNext args a := by
  constructor
  · rintro ⟨h1, h2, h3, h4, h5⟩
    rw [List.map_append, List.nodup_append] at h1
    refine ⟨⟨h1.1, fun h => h2 (List.mem_append_left _ h), fun n h => h3 n (List.mem_append_left _ h), fun n h => h4 n (List.mem_append_left _ h), fun n h => h5 n (List.mem_append_left _ h)⟩, ?_, ?_, ?_, ?_, ?_⟩
    · intro h; exact h1.2.2 _ h _ (by simp) rfl
    · rintro rfl; exact h2 (by simp)
    · rintro n rfl; exact h3 n (by simp)
    · rintro n rfl; exact h4 n (by simp)
    · rintro n rfl; exact h5 n (by simp)
  · rintro ⟨⟨h1, h2, h3, h4, h5⟩, g1, g2, g3, g4, g5⟩
    constructor
    · rw [List.map_append, List.nodup_append]
      refine ⟨h1, by simp, ?_⟩
      intro x hx y hy
      simp at hy; subst hy
      rintro rfl; exact g1 hx
    · intro h
      rcases List.mem_append.mp h with h | h
      · exact h2 h
      · exact g2 (List.mem_singleton.mp h).symm
    · intro n h
      rcases List.mem_append.mp h with h | h
      · exact h3 n h
      · exact g3 n (List.mem_singleton.mp h).symm
    · intro n h
      rcases List.mem_append.mp h with h | h
      · exact h4 n h
      · exact g4 n (List.mem_singleton.mp h).symm
    · intro n h
      rcases List.mem_append.mp h with h | h
      · exact h5 n h
      · exact g5 n (List.mem_singleton.mp h).symm

theorem kind_mem {args : List TaskArg} {s : ArgSt} (hi : ArgInv args s) (a : TaskArg) : a.kind ∈ args.map TaskArg.kind ↔
    match a with
    | .binds _ => s.binds.isSome = true
    | .priority _ => s.priority.isSome = true
    | .shared _ => s.shared.isSome = true
    | .locals _ => s.locals.isSome = true
    | .localTask _ => s.localTask.isSome = true
    | .other => .other ∈ args := by
  obtain ⟨h1, h2, h3, h4, h5, h6, h7, h8⟩ := hi
  cases a <;> simp only [List.mem_map, Option.isSome_iff_exists]
  all_goals constructor
  · rintro ⟨b, hb, he⟩; cases b <;> cases he; exact ⟨_, (h1 _).mpr hb⟩
  · rintro ⟨b, hb⟩; exact ⟨_, (h1 _).mp hb, rfl⟩
  · rintro ⟨b, hb, he⟩; cases b <;> cases he; exact ⟨_, (h2 _).mpr hb⟩
  · rintro ⟨b, hb⟩; exact ⟨_, (h2 _).mp hb, rfl⟩
  · rintro ⟨b, hb, he⟩; cases b <;> cases he; exact ⟨_, (h4 _).mpr hb⟩
  · rintro ⟨b, hb⟩; exact ⟨_, (h4 _).mp hb, rfl⟩
  · rintro ⟨b, hb, he⟩; cases b <;> cases he; exact ⟨_, (h5 _).mpr hb⟩
  · rintro ⟨b, hb⟩; exact ⟨_, (h5 _).mp hb, rfl⟩
  · rintro ⟨b, hb, he⟩; cases b <;> cases he; exact ⟨_, (h6 _).mpr hb⟩
  · rintro ⟨b, hb⟩; exact ⟨_, (h6 _).mp hb, rfl⟩
  · rintro ⟨b, hb, he⟩; cases b <;> cases he; exact hb
  · intro hb; exact ⟨_, hb, rfl⟩

theorem taskArg_iff {args : List TaskArg} {s : ArgSt} (hi : ArgInv args s) (a : TaskArg) : (∃ s', taskArg s a = .ok s') ↔ ArgNext args a := by
  unfold ArgNext
  rw [kind_mem hi a]
  cases a with
  | other =>
    constructor
    · rintro ⟨s', h⟩; cases h
    · rintro ⟨-, h, -⟩; exact absurd rfl h
  | binds b =>
    simp only [taskArg]
    constructor
    · rintro ⟨s', h⟩
      split at h
      · cases h
      · exact ⟨by assumption, by simp⟩
    · rintro ⟨h, -⟩; rw [if_neg h]; exact ⟨_, rfl⟩
  | localTask b =>
    simp only [taskArg]
    constructor
    · rintro ⟨s', h⟩
      split at h
      · cases h
      · exact ⟨by assumption, by simp⟩
    · rintro ⟨h, -⟩; rw [if_neg h]; exact ⟨_, rfl⟩
  | priority n =>
    simp only [taskArg]
    constructor
    · rintro ⟨s', h⟩
      split at h
      · cases h
      · split at h
        · cases h
        · refine ⟨by assumption, by simp, ?_, by simp, by simp⟩
          rintro n' e
          cases e
          omega
    · rintro ⟨h, -, hn, -⟩
      have := hn n rfl
      rw [if_neg h, if_neg (by omega)]; exact ⟨_, rfl⟩
  | shared l =>
    simp only [taskArg]
    constructor
    · rintro ⟨s', h⟩
      split at h
      · cases h
      · obtain ⟨m, hm, -⟩ := bind_ok h
        refine ⟨by assumption, by simp, by simp, ?_, by simp⟩
        rintro n' e
        cases e
        exact (parseShared_iff.mp hm).2
    · rintro ⟨h, -, -, hl, -⟩
      rw [if_neg h, bind_eq (parseShared_iff.mpr ⟨rfl, hl l rfl⟩)]; exact ⟨_, rfl⟩
  | locals l =>
    simp only [taskArg]
    constructor
    · rintro ⟨s', h⟩
      split at h
      · cases h
      · obtain ⟨m, hm, -⟩ := bind_ok h
        refine ⟨by assumption, by simp, by simp, by simp, ?_⟩
        rintro n' e
        cases e
        exact (parseLocals_iff.mp hm).2
    · rintro ⟨h, -, -, -, hl⟩
      rw [if_neg h, bind_eq (parseLocals_iff.mpr ⟨rfl, hl l rfl⟩)]; exact ⟨_, rfl⟩

theorem argsValid_left {l1 l2 : List TaskArg} (h : ArgsValid (l1 ++ l2)) : ArgsValid l1 := by
  obtain ⟨h1, h2, h3, h4, h5⟩ := h
  rw [List.map_append, List.nodup_append] at h1
  exact ⟨h1.1, fun h => h2 (List.mem_append_left _ h), fun n h => h3 n (List.mem_append_left _ h), fun n h => h4 n (List.mem_append_left _ h), fun n h => h5 n (List.mem_append_left _ h)⟩

theorem argsValid_nil : ArgsValid [] := by constructor <;> simp

theorem argsFold_iff {args : List TaskArg} : (∃ s, args.foldlM taskArg {} = .ok s) ↔ ArgsValid args := by
  constructor
  · rintro ⟨s, h⟩
    have := foldlM_inv (f := taskArg) (fun l s => ArgInv l s ∧ ArgsValid l) (fun l a b b' hi hs => ⟨argInv_step hi.1 hs, argsValid_snoc.mpr ⟨hi.2, (taskArg_iff hi.1 a).mp ⟨_, hs⟩⟩⟩) (pre := []) ⟨argInv_nil, argsValid_nil⟩ h
    simpa using this.2
  · intro h
    refine foldlM_exists ArgInv (fun _ _ _ _ hi hs => argInv_step hi hs) (pre := []) argInv_nil fun pre a post s he hi => ?_
    refine (taskArg_iff hi a).mpr ?_
    have : ArgsValid (pre ++ [a] ++ post) := by simpa [← he] using h
    exact (argsValid_snoc.mp (argsValid_left this)).2

theorem taskArgs_iff {args : List TaskArg} {ins : List Ty} : (∃ r, taskArgs args ins = .ok r) ↔ ArgsValid args ∧ ((∃ b, .binds b ∈ args) → .priority 0 ∉ args) := by
  rw [← argsFold_iff]
  unfold taskArgs
  constructor
  · rintro ⟨r, h⟩
    obtain ⟨s, hs, h⟩ := bind_ok h
    have hi := taskArgs_fold hs
    refine ⟨⟨s, hs⟩, ?_⟩
    rintro ⟨b, hb⟩ h0
    rw [(hi.binds b).mpr hb, (hi.priority 0).mpr h0] at h
    cases h
  · rintro ⟨⟨s, hs⟩, h⟩
    have hi := taskArgs_fold hs
    rw [bind_eq hs]
    cases hb : s.binds with
    | none => exact ⟨_, rfl⟩
    | some b =>
      simp only
      have h0 := h ⟨b, (hi.binds b).mp hb⟩
      rw [if_neg]
      · exact ⟨_, rfl⟩
      · cases hp : s.priority with
        | none => simp
        | some q =>
          simp only [Option.getD_some]
          rintro rfl
          exact h0 ((hi.priority 0).mp hp)

theorem initFold {args : List TaskArg} {s : ArgSt} : (args.foldlM (fun s a => match a with
    | .locals l => taskArg s (.locals l)
    | _ => err .unexpectedArg) ({} : ArgSt)) = .ok s ↔ (∀ a ∈ args, ∃ l, a = .locals l) ∧ args.foldlM taskArg {} = .ok s := by
  apply foldlM_restrict
  · rintro b a ⟨l, rfl⟩; rfl
  · intro b a b' h; cases a <;> first | exact ⟨_, rfl⟩ | cases h

theorem idleFold {args : List TaskArg} {s : ArgSt} : (args.foldlM (fun s a => match a with
    | .locals l => taskArg s (.locals l)
    | .shared l => taskArg s (.shared l)
    | _ => err .unexpectedArg) ({} : ArgSt)) = .ok s ↔ (∀ a ∈ args, (∃ l, a = .shared l) ∨ ∃ l, a = .locals l) ∧ args.foldlM taskArg {} = .ok s := by
  apply foldlM_restrict
  · rintro b a (⟨l, rfl⟩ | ⟨l, rfl⟩) <;> rfl
  · intro b a b' h; cases a <;> first | exact .inl ⟨_, rfl⟩ | exact .inr ⟨_, rfl⟩ | cases h

theorem initArgs_iff {args : List TaskArg} : (∃ r, initArgs args = .ok r) ↔ ArgsValid args ∧ ∀ a ∈ args, ∃ l, a = .locals l ∧ ∀ r, (r, .external) ∉ l := by
  rw [← argsFold_iff]
  constructor
  · rintro ⟨r, h⟩
    have h' := h
    unfold initArgs at h
    obtain ⟨s, hs, -⟩ := bind_ok h
    obtain ⟨h1, h2⟩ := initFold.mp hs
    refine ⟨⟨s, h2⟩, fun a ha => ?_⟩
    obtain ⟨l, rfl⟩ := h1 a ha
    obtain ⟨g1, g2, -⟩ := initArgs_ok h'
    exact ⟨l, rfl, fun r hr => g2 r ((g1 _).mpr ⟨l, ha, hr⟩)⟩
  · rintro ⟨⟨s, hs⟩, h⟩
    have hi := taskArgs_fold hs
    have e : initArgs args = (if (s.locals.getD []).any (fun kv => kv.2 = .external) then err .initExternal else pure (s.locals.getD [])) :=
      bind_eq (initFold.mpr ⟨fun a ha => (h a ha).imp fun _ h => h.1, hs⟩) _
    rw [e, if_neg]
    · exact ⟨_, rfl⟩
    · intro hany
      obtain ⟨⟨r, k⟩, hm, hk⟩ := List.any_eq_true.mp hany
      have hk : k = .external := by simpa using hk
      subst hk
      obtain ⟨l, hl, hr⟩ := ((argsSay_of_inv hi).locals _).mp hm
      obtain ⟨l', he, hno⟩ := h _ hl
      cases he
      exact hno r hr

theorem idleArgs_iff {args : List TaskArg} : (∃ r, idleArgs args = .ok r) ↔ ArgsValid args ∧ ∀ a ∈ args, (∃ l, a = .shared l) ∨ ∃ l, a = .locals l := by
  rw [← argsFold_iff]
  constructor
  · rintro ⟨r, h⟩
    unfold idleArgs at h
    obtain ⟨s, hs, -⟩ := bind_ok h
    obtain ⟨h1, h2⟩ := idleFold.mp hs
    exact ⟨⟨s, h2⟩, h1⟩
  · rintro ⟨⟨s, hs⟩, h⟩
    have e : idleArgs args = pure (s.shared.getD [], s.locals.getD []) := bind_eq (idleFold.mpr ⟨h, hs⟩) _
    exact ⟨_, e⟩

/-! ## items -/

/-- what is known of the structs of one kind -/
def StructInv {α : Type} (structs : List (Ident × List (Ident × α))) (i : Option Ident) (res : Map α) : Prop :=
  (structs = [] ∧ i = none ∧ res = []) ∨ ∃ pre n, structs = pre ++ [(n, res)] ∧ (∀ s ∈ pre, s.2 = []) ∧ (res.map Prod.fst).Nodup ∧ i = some n

theorem structInv_step {α : Type} {structs : List (Ident × List (Ident × α))} {i : Option Ident} {n : Ident} {f : List (Ident × α)} (h : StructInv structs i []) (hf : (f.map Prod.fst).Nodup) : StructInv (structs ++ [(n, f)]) (some n) f := by
  refine .inr ⟨structs, n, rfl, ?_, hf, rfl⟩
  rcases h with ⟨rfl, -⟩ | ⟨pre, n', rfl, hp, -⟩
  · simp
  · intro s hs
    rcases List.mem_append.mp hs with hs | hs
    · exact hp s hs
    · simp at hs; rw [hs]

theorem structInv_valid {α : Type} {structs : List (Ident × List (Ident × α))} {i : Option Ident} {res : Map α} (h : StructInv structs i res) (n : Ident) : i = some n ↔ StructsValid structs n := by
  rcases h with ⟨rfl, rfl, rfl⟩ | ⟨pre, n', rfl, h1, h2, rfl⟩
  · constructor
    · intro h; cases h
    · rintro ⟨u, f, h, -⟩; simp at h
  · constructor
    · intro h; cases h; exact ⟨pre, res, rfl, h1, h2⟩
    · rintro ⟨u, f, h, -⟩
      have := (List.append_inj' h rfl).2
      simp at this
      rw [this.1]

def sharedOf : Item → Option (Ident × List (Ident × SharedRes)) | .sharedStruct i f => some (i, f) | _ => none
def localOf : Item → Option (Ident × List (Ident × Ty)) | .localStruct i f => some (i, f) | _ => none

theorem sharedStructs_eq (raw : Raw) : raw.sharedStructs = raw.items.filterMap sharedOf := by
  unfold Raw.sharedStructs; congr 1
theorem localStructs_eq (raw : Raw) : raw.localStructs = raw.items.filterMap localOf := by
  unfold Raw.localStructs; congr 1
theorem functions_eq (raw : Raw) : raw.functions = raw.items.filterMap fnName := by
  unfold Raw.functions; congr 1

theorem filterMap_none {α β : Type} {f : α → Option β} {l : List α} {a : α} (h : f a = none) : (l ++ [a]).filterMap f = l.filterMap f := by
  rw [List.filterMap_append]; simp [h]
theorem filterMap_some {α β : Type} {f : α → Option β} {l : List α} {a : α} {b : β} (h : f a = some b) : (l ++ [a]).filterMap f = l.filterMap f ++ [b] := by
  rw [List.filterMap_append]; simp [h]

/-- the signature of a task fits its attribute -/
def SigOk (args : List TaskArg) (as : Bool) (ins : List Ty) (ok : Bool) : Prop :=
  ok = true ∧ ((∃ b, .binds b ∈ args) → as = false ∧ ins = []) ∧ ((∀ b, .binds b ∉ args) → as = true)

/-- what the state of `App::parse` says about the rules -/
structure PAcc (items : List Item) (s : PSt) : Prop where
  inv : PInv items s
  shared : StructInv (items.filterMap sharedOf) s.sharedIdent s.sharedRes
  locals : StructInv (items.filterMap localOf) s.localIdent s.localRes
  init : ∀ t args ok us ul, .init t args ok us ul ∈ items → ok = true
  idle : ∀ t args ok, .idle t args ok ∈ items → ok = true
  task : ∀ t args as ins ok, .task t args as ins ok ∈ items → SigOk args as ins ok

theorem pacc_nil : PAcc [] {} := ⟨pinv_nil, .inl ⟨rfl, rfl, rfl⟩, .inl ⟨rfl, rfl, rfl⟩, by simp, by simp, by simp⟩

theorem pacc_step {items : List Item} {a : Item} {s s' : PSt} (hi : PAcc items s) (h : parseItem s a = .ok s') : PAcc (items ++ [a]) s' := by
  have hp := pinv_step hi.inv h
  obtain ⟨-, h2, h3, h4, h5, h6⟩ := hi
  cases a with
  | other =>
    cases h
    refine ⟨hp, by rw [filterMap_none (by rfl)]; exact h2, by rw [filterMap_none (by rfl)]; exact h3, ?_, ?_, ?_⟩
    · intro t args ok us ul hm; simp at hm; exact h4 _ _ _ _ _ hm
    · intro t args ok hm; simp at hm; exact h5 _ _ _ hm
    · intro t args as ins ok hm; simp at hm; exact h6 _ _ _ _ _ hm
  | init n args ok us ul =>
    simp only [parseItem] at h
    obtain ⟨l, hl, h⟩ := bind_ok h
    split at h
    · cases h
    · obtain ⟨s1, hs1, h⟩ := bind_ok h
      obtain ⟨hns, rfl⟩ := checkIdent_ok hs1
      split at h
      · rename_i hok
        cases h
        refine ⟨hp, by rw [filterMap_none (by rfl)]; exact h2, by rw [filterMap_none (by rfl)]; exact h3, ?_, ?_, ?_⟩
        · intro t args ok us ul hm; simp only [List.mem_append, List.mem_singleton] at hm
          rcases hm with hm | hm
          · exact h4 _ _ _ _ _ hm
          · cases hm; exact hok
        · intro t args ok hm; simp at hm; exact h5 _ _ _ hm
        · intro t args as ins ok hm; simp at hm; exact h6 _ _ _ _ _ hm
      · cases h
  | idle n args ok =>
    simp only [parseItem] at h
    obtain ⟨⟨sh, l⟩, hl, h⟩ := bind_ok h
    simp only at h
    split at h
    · cases h
    · obtain ⟨s1, hs1, h⟩ := bind_ok h
      obtain ⟨hns, rfl⟩ := checkIdent_ok hs1
      split at h
      · rename_i hok
        cases h
        refine ⟨hp, by rw [filterMap_none (by rfl)]; exact h2, by rw [filterMap_none (by rfl)]; exact h3, ?_, ?_, ?_⟩
        · intro t args ok us ul hm; simp at hm; exact h4 _ _ _ _ _ hm
        · intro t args ok hm; simp only [List.mem_append, List.mem_singleton] at hm
          rcases hm with hm | hm
          · exact h5 _ _ _ hm
          · cases hm; exact hok
        · intro t args as ins ok hm; simp at hm; exact h6 _ _ _ _ _ hm
      · cases h
  | task n args as ins ok =>
    simp only [parseItem] at h
    split at h
    · cases h
    · obtain ⟨r, hr, h⟩ := bind_ok h
      cases r with
      | inl t =>
        simp only at h
        obtain ⟨s1, hs1, h⟩ := bind_ok h
        obtain ⟨hnb, rfl⟩ := checkBinding_ok hs1
        obtain ⟨s2, hs2, h⟩ := bind_ok h
        obtain ⟨hns, rfl⟩ := checkIdent_ok hs2
        split at h
        · rename_i hok
          simp only [Bool.and_eq_true, Bool.not_eq_true', List.isEmpty_iff] at hok
          cases h
          refine ⟨hp, by rw [filterMap_none (by rfl)]; exact h2, by rw [filterMap_none (by rfl)]; exact h3, ?_, ?_, ?_⟩
          · intro t args ok us ul hm; simp at hm; exact h4 _ _ _ _ _ hm
          · intro t args ok hm; simp at hm; exact h5 _ _ _ hm
          · intro t' args' as' ins' ok' hm; simp only [List.mem_append, List.mem_singleton] at hm
            rcases hm with hm | hm
            · exact h6 _ _ _ _ _ hm
            · cases hm
              exact ⟨hok.1.1, fun _ => ⟨hok.1.2, hok.2⟩, fun hno => absurd (taskArgs_hw hr).1 (hno _)⟩
        · cases h
      | inr t =>
        simp only at h
        obtain ⟨s2, hs2, h⟩ := bind_ok h
        obtain ⟨hns, rfl⟩ := checkIdent_ok hs2
        split at h
        · rename_i hok
          simp only [Bool.and_eq_true] at hok
          cases h
          refine ⟨hp, by rw [filterMap_none (by rfl)]; exact h2, by rw [filterMap_none (by rfl)]; exact h3, ?_, ?_, ?_⟩
          · intro t args ok us ul hm; simp at hm; exact h4 _ _ _ _ _ hm
          · intro t args ok hm; simp at hm; exact h5 _ _ _ hm
          · intro t' args' as' ins' ok' hm; simp only [List.mem_append, List.mem_singleton] at hm
            rcases hm with hm | hm
            · exact h6 _ _ _ _ _ hm
            · cases hm
              exact ⟨hok.1, fun ⟨b, hb⟩ => absurd hb ((taskArgs_sw hr).1 b), fun _ => hok.2⟩
        · cases h
  | sharedStruct i f =>
    simp only [parseItem] at h
    split at h
    · cases h
    · rename_i hemp
      obtain ⟨m, hm, h⟩ := bind_ok h
      cases h
      have hemp' : s.sharedRes = [] := by simpa using hemp
      rw [hemp'] at hm h2
      obtain ⟨em, hnd⟩ := foldlM_insertNew (by simp) hm
      rw [List.nil_append] at em
      subst em
      refine ⟨hp, ?_, by rw [filterMap_none (by rfl)]; exact h3, ?_, ?_, ?_⟩
      · have := structInv_step (n := i) h2 hnd
        rw [filterMap_some (by rfl)]; exact this
      · intro t args ok us ul hm; simp at hm; exact h4 _ _ _ _ _ hm
      · intro t args ok hm; simp at hm; exact h5 _ _ _ hm
      · intro t args as ins ok hm; simp at hm; exact h6 _ _ _ _ _ hm
  | localStruct i f =>
    simp only [parseItem] at h
    split at h
    · cases h
    · rename_i hemp
      obtain ⟨m, hm, h⟩ := bind_ok h
      cases h
      have hemp' : s.localRes = [] := by simpa using hemp
      rw [hemp'] at hm h3
      obtain ⟨em, hnd⟩ := foldlM_insertNew (by simp) hm
      rw [List.nil_append] at em
      subst em
      refine ⟨hp, by rw [filterMap_none (by rfl)]; exact h2, ?_, ?_, ?_, ?_⟩
      · have := structInv_step (n := i) h3 hnd
        rw [filterMap_some (by rfl)]; exact this
      · intro t args ok us ul hm; simp at hm; exact h4 _ _ _ _ _ hm
      · intro t args ok hm; simp at hm; exact h5 _ _ _ hm
      · intro t args as ins ok hm; simp at hm; exact h6 _ _ _ _ _ hm

theorem pair_of_nodup_map {α β : Type} {f : α → β} {l : List α} (h : (l.map f).Nodup) {a b : α} (ha : a ∈ l) (hb : b ∈ l) (he : f a = f b) : a = b := by
  induction l with
  | nil => cases ha
  | cons x l ih =>
    rw [List.map_cons, List.nodup_cons] at h
    rcases List.mem_cons.mp ha with rfl | ha'
    · rcases List.mem_cons.mp hb with rfl | hb'
      · rfl
      · exact absurd (he ▸ List.mem_map.mpr ⟨b, hb', rfl⟩) h.1
    · rcases List.mem_cons.mp hb with rfl | hb'
      · exact absurd (he ▸ List.mem_map.mpr ⟨a, ha', rfl⟩) h.1
      · exact ih h.2 ha' hb'

theorem itemsValid_of_parse {raw : Raw} {app : App} (h : parse raw = .ok app) : ItemsValid raw := by
  have hs := says_of_parse h
  unfold parse at h
  obtain ⟨ds, hds, h⟩ := bind_ok h
  obtain ⟨s, hfold, h⟩ := bind_ok h
  have hi : PAcc raw.items s := by
    have := foldlM_inv PAcc (pre := []) (fun _ _ _ _ hi hs => pacc_step hi hs) pacc_nil hfold
    simpa using this
  split at h
  · rename_i si li ini h1 h2 h3
    split at h
    · cases h
    · rename_i hus
      split at h
      · cases h
      · rename_i hul
        simp only [ne_eq, Decidable.not_not] at hus hul
        obtain ⟨hinv, hsh, hlo, i4, i5, i6⟩ := hi
        constructor
        · obtain ⟨args, ok, hm, hr⟩ := (hinv.init ini).mp h3
          have hv := initArgs_iff.mp ⟨_, hr⟩
          have hok := i4 _ _ _ _ _ hm
          subst hok
          refine ⟨_, args, _, _, hm, hv.1, hv.2, ?_, ?_⟩
          · rw [sharedStructs_eq]; exact (structInv_valid hsh _).mp (by rw [h1, hus])
          · rw [localStructs_eq]; exact (structInv_valid hlo _).mp (by rw [h2, hul])
        · intro t args ok us ul t' args' ok' us' ul' hm hm'
          obtain ⟨r, hr⟩ := hinv.inits _ _ _ _ _ hm
          obtain ⟨r', hr'⟩ := hinv.inits _ _ _ _ _ hm'
          have e := (hinv.init ⟨t, r, us, ul⟩).mpr ⟨_, _, hm, hr⟩
          have e' := (hinv.init ⟨t', r', us', ul'⟩).mpr ⟨_, _, hm', hr'⟩
          rw [e] at e'; cases e'; rfl
        · intro t args ok t' args' ok' hm hm'
          obtain ⟨r, hr⟩ := hinv.idles _ _ _ hm
          obtain ⟨r', hr'⟩ := hinv.idles _ _ _ hm'
          have e := (hinv.idle ⟨t, r.1, r.2⟩).mpr ⟨_, _, hm, hr⟩
          have e' := (hinv.idle ⟨t', r'.1, r'.2⟩).mpr ⟨_, _, hm', hr'⟩
          rw [e] at e'
          exact congrArg Idle.name (Option.some.inj e')
        · intro t args ok hm
          have hv := idleArgs_iff.mp (hinv.idles _ _ _ hm)
          exact ⟨i5 _ _ _ hm, hv.1, hv.2⟩
        · intro t args as ins ok hm
          have hv := taskArgs_iff.mp (hinv.tasks _ _ _ _ _ hm)
          obtain ⟨g1, g2, g3⟩ := i6 _ _ _ _ _ hm
          exact ⟨g1, hv.1, fun hb => ⟨(g2 hb).1, (g2 hb).2, hv.2 hb⟩, g3⟩
        · rw [functions_eq]; exact hinv.names
        · intro t t' v q q' args args' ht ht'
          obtain ⟨x, hx, hv, -⟩ := hw_of_task hs ht
          obtain ⟨x', hx', hv', -⟩ := hw_of_task hs ht'
          have := pair_of_nodup_map hs.nodupB hx hx' (by simp only [hv, hv'])
          exact congrArg Prod.fst this
        · have := hs.nodupD; rwa [hs.dispatchers] at this
  · cases h

theorem parse_of_itemsValid {raw : Raw} (hv : ItemsValid raw) : ∃ app, parse raw = .ok app := by
  have hn := hv.names
  rw [functions_eq] at hn
  -- a name is new
  have hnew : ∀ {pre post : List Item} {a : Item} {n : Ident}, raw.items = pre ++ a :: post → fnName a = some n → some n ∉ pre.map fnName := by
    intro pre post a n he ha hm
    obtain ⟨b, hb, hbn⟩ := List.mem_map.mp hm
    rw [he, List.filterMap_append, List.nodup_append] at hn
    exact hn.2.2 n (List.mem_filterMap.mpr ⟨b, hb, hbn⟩) n (List.mem_filterMap.mpr ⟨a, List.mem_cons_self, ha⟩) rfl
  have hfold : ∃ s, raw.items.foldlM parseItem {} = .ok s := by
    refine foldlM_exists PAcc (fun _ _ _ _ hi hs => pacc_step hi hs) (pre := []) pacc_nil fun pre a post s he hi => ?_
    rw [List.nil_append] at he
    have hmem : a ∈ raw.items := by rw [he]; simp
    have hpre : ∀ b ∈ pre, b ∈ raw.items := fun b hb => by rw [he]; simp [hb]
    have hseen : ∀ n, fnName a = some n → checkIdent s n = .ok { s with seen := n :: s.seen } := by
      intro n ha
      unfold checkIdent
      rw [if_neg fun hh => hnew he ha ((hi.inv.seen n).mp hh)]
    cases a with
    | other => exact ⟨_, rfl⟩
    | init n args ok us ul =>
      obtain ⟨t, args0, us0, ul0, hm0, hav, hloc, hsh, hlo⟩ := hv.init
      have hsame := hv.inits _ _ _ _ _ _ _ _ _ _ hmem hm0
      cases same_item hn hmem hm0 rfl (by rw [hsame]; rfl)
      obtain ⟨l, hl⟩ := initArgs_iff.mpr ⟨hav, hloc⟩
      simp only [parseItem]
      rw [bind_eq hl, if_neg, bind_eq (hseen n rfl)]
      · exact ⟨_, rfl⟩
      · intro hsome
        obtain ⟨i, hi'⟩ := Option.isSome_iff_exists.mp hsome
        obtain ⟨args', ok', hm', -⟩ := (hi.inv.init i).mp hi'
        have := hv.inits _ _ _ _ _ _ _ _ _ _ (hpre _ hm') hmem
        exact hnew he rfl (List.mem_map.mpr ⟨_, hm', by rw [← this]; rfl⟩)
    | idle n args ok =>
      obtain ⟨rfl, hav, hk⟩ := hv.idle _ _ _ hmem
      obtain ⟨r, hr⟩ := idleArgs_iff.mpr ⟨hav, hk⟩
      simp only [parseItem]
      rw [bind_eq hr, if_neg, bind_eq (hseen n rfl)]
      · exact ⟨_, rfl⟩
      · intro hsome
        obtain ⟨i, hi'⟩ := Option.isSome_iff_exists.mp hsome
        obtain ⟨args', ok', hm', -⟩ := (hi.inv.idle i).mp hi'
        have := hv.idles _ _ _ _ _ _ (hpre _ hm') hmem
        exact hnew he rfl (List.mem_map.mpr ⟨_, hm', by rw [← this]; rfl⟩)
    | task n args as ins ok =>
      obtain ⟨rfl, hav, hb, hnb⟩ := hv.task _ _ _ _ _ hmem
      obtain ⟨r, hr⟩ := taskArgs_iff (ins := ins).mpr ⟨hav, fun h => (hb h).2.2⟩
      have hno : ¬ (has s.hw n || has s.sw n) = true := by
        intro hh
        rw [Bool.or_eq_true] at hh
        rcases hh with hh | hh
        · obtain ⟨t, ht⟩ := has_iff.mp hh
          obtain ⟨args', as', ins', ok', hm', -⟩ := (hi.inv.hw _ _).mp ht
          exact hnew he rfl (List.mem_map.mpr ⟨_, hm', rfl⟩)
        · obtain ⟨t, ht⟩ := has_iff.mp hh
          obtain ⟨args', as', ins', ok', hm', -⟩ := (hi.inv.sw _ _).mp ht
          exact hnew he rfl (List.mem_map.mpr ⟨_, hm', rfl⟩)
      simp only [parseItem]
      rw [if_neg hno, bind_eq hr]
      cases r with
      | inl t =>
        simp only
        obtain ⟨g1, g2, g3, -⟩ := taskArgs_hw hr
        have hfree : t.binds ∉ s.bindings := by
          intro hh
          obtain ⟨⟨n', t'⟩, ht', hbe⟩ := List.mem_map.mp ((hi.inv.binds _).mp hh)
          obtain ⟨args', as', ins', ok', hm', hr'⟩ := (hi.inv.hw _ _).mp ht'
          obtain ⟨k1, k2, k3, -⟩ := taskArgs_hw hr'
          have e : n' = n := hv.binds _ _ t.binds _ _ _ _ (.hardware (hpre _ hm') (by rw [← hbe]; exact k1) ((k3 _).mpr rfl)) (.hardware hmem g1 ((g3 _).mpr rfl))
          exact hnew he rfl (List.mem_map.mpr ⟨_, hm', by rw [e]; rfl⟩)
        have hcb : checkBinding s t.binds = .ok { s with bindings := t.binds :: s.bindings } := by
          unfold checkBinding; rw [if_neg hfree]
        rw [bind_eq hcb]
        have hci : checkIdent { s with bindings := t.binds :: s.bindings } n = .ok { s with bindings := t.binds :: s.bindings, seen := n :: s.seen } := by
          unfold checkIdent
          rw [if_neg fun hh => hnew he rfl ((hi.inv.seen n).mp hh)]
        rw [bind_eq hci]
        obtain ⟨rfl, rfl, -⟩ := hb ⟨_, g1⟩
        exact ⟨_, rfl⟩
      | inr t =>
        simp only
        rw [bind_eq (hseen n rfl)]
        have := hnb (taskArgs_sw hr).1
        subst this
        exact ⟨_, rfl⟩
    | sharedStruct i f =>
      obtain ⟨t, args0, us0, ul0, hm0, hav, hloc, ⟨u, fs, hst, hu, hnd⟩, hlo⟩ := hv.init
      have hsplit : pre.filterMap sharedOf ++ (i, f) :: post.filterMap sharedOf = u ++ [(us0, fs)] := by
        rw [← hst, sharedStructs_eq, he, List.filterMap_append]; rfl
      have hempty : (∀ x ∈ pre.filterMap sharedOf, x.2 = []) ∧ (f.map Prod.fst).Nodup := by
        rcases List.eq_nil_or_concat (post.filterMap sharedOf) with hp | ⟨l, x, hp⟩
        · rw [hp] at hsplit
          obtain ⟨e1, e2⟩ := List.append_inj' hsplit rfl
          cases e2
          exact ⟨by rw [e1]; exact hu, hnd⟩
        · rw [hp, List.concat_eq_append, ← List.cons_append, ← List.append_assoc] at hsplit
          obtain ⟨e1, -⟩ := List.append_inj' hsplit rfl
          refine ⟨fun x hx => hu x (by rw [← e1]; simp [hx]), ?_⟩
          have : f = [] := hu (i, f) (by rw [← e1]; simp)
          rw [this]; simp
      have hres : s.sharedRes = [] := by
        rcases hi.shared with ⟨-, -, h⟩ | ⟨p, n, h, -⟩
        · exact h
        · exact hempty.1 (n, s.sharedRes) (by rw [h]; simp)
      simp only [parseItem, hres]
      have := foldlM_insertNew_total (e := .fieldTwice) (m := []) (l := f) (by simpa using hempty.2)
      rw [bind_eq this]
      exact ⟨_, rfl⟩
    | localStruct i f =>
      obtain ⟨t, args0, us0, ul0, hm0, hav, hloc, -, ⟨u, fs, hst, hu, hnd⟩⟩ := hv.init
      have hsplit : pre.filterMap localOf ++ (i, f) :: post.filterMap localOf = u ++ [(ul0, fs)] := by
        rw [← hst, localStructs_eq, he, List.filterMap_append]; rfl
      have hempty : (∀ x ∈ pre.filterMap localOf, x.2 = []) ∧ (f.map Prod.fst).Nodup := by
        rcases List.eq_nil_or_concat (post.filterMap localOf) with hp | ⟨l, x, hp⟩
        · rw [hp] at hsplit
          obtain ⟨e1, e2⟩ := List.append_inj' hsplit rfl
          cases e2
          exact ⟨by rw [e1]; exact hu, hnd⟩
        · rw [hp, List.concat_eq_append, ← List.cons_append, ← List.append_assoc] at hsplit
          obtain ⟨e1, -⟩ := List.append_inj' hsplit rfl
          refine ⟨fun x hx => hu x (by rw [← e1]; simp [hx]), ?_⟩
          have : f = [] := hu (i, f) (by rw [← e1]; simp)
          rw [this]; simp
      have hres : s.localRes = [] := by
        rcases hi.locals with ⟨-, -, h⟩ | ⟨p, n, h, -⟩
        · exact h
        · exact hempty.1 (n, s.localRes) (by rw [h]; simp)
      simp only [parseItem, hres]
      have := foldlM_insertNew_total (e := .fieldTwice) (m := []) (l := f) (by simpa using hempty.2)
      rw [bind_eq this]
      exact ⟨_, rfl⟩
  obtain ⟨s, hs⟩ := hfold
  have hi : PAcc raw.items s := by
    have := foldlM_inv PAcc (pre := []) (fun _ _ _ _ hi hs => pacc_step hi hs) pacc_nil hs
    simpa using this
  obtain ⟨t, args0, us0, ul0, hm0, hav, hloc, hsh, hlo⟩ := hv.init
  rw [sharedStructs_eq] at hsh
  rw [localStructs_eq] at hlo
  have e1 := (structInv_valid hi.shared _).mpr hsh
  have e2 := (structInv_valid hi.locals _).mpr hlo
  obtain ⟨l, hl⟩ := initArgs_iff.mpr ⟨hav, hloc⟩
  have e3 := (hi.inv.init ⟨t, l, us0, ul0⟩).mpr ⟨args0, true, hm0, hl⟩
  unfold parse
  rw [bind_eq (parseDispatchers_nodup hv.dispatchers), bind_eq hs, e1, e2, e3]
  simp
  exact ⟨_, rfl⟩

end Verif.Analysis
