import Verif.Grammar.Lemmas

/-!
# The arguments one after the other

The loops of the code as folds over the arguments of the grammar, and what these folds compute.
-/

namespace Verif.Grammar
open Verif.Analysis (Ident Access Map has)
open Verif.Signature (Attr Path Seg)

/-! ## folds that fill slots -/

theorem fold_iff {σ α κ : Type} (inv : σ → Prop) (sem : σ → α → Option σ) (set : σ → α → σ) (free : σ → κ → Prop) (kind : α → κ) (good : α → Prop)
    (h1 : ∀ s a s', inv s → (sem s a = some s' ↔ free s (kind a) ∧ good a ∧ s' = set s a))
    (h2 : ∀ s a k, free (set s a) k ↔ free s k ∧ k ≠ kind a) (h3 : ∀ s a, inv s → inv (set s a)) :
    ∀ (as : List α) s s', inv s → (as.foldlM sem s = some s' ↔ (as.map kind).Nodup ∧ (∀ a ∈ as, free s (kind a) ∧ good a) ∧ s' = as.foldl set s) := by
  intro as
  induction as with
  | nil => intro s s' _; simp [eq_comm]
  | cons a as ih =>
    intro s s' hi
    simp only [List.foldlM_cons, List.map_cons, List.nodup_cons, List.foldl_cons, List.mem_cons, Option.bind_eq_bind]
    constructor
    · intro h
      cases hs : sem s a with
      | none => rw [hs] at h; cases h
      | some s1 =>
        rw [hs] at h
        obtain ⟨hf, hg, rfl⟩ := (h1 _ _ _ hi).1 hs
        obtain ⟨hn, hall, he⟩ := (ih _ _ (h3 _ _ hi)).1 h
        refine ⟨⟨?_, hn⟩, ?_, he⟩
        · intro hm
          obtain ⟨b, hb, e⟩ := List.mem_map.1 hm
          exact ((h2 _ _ _).1 (hall b hb).1).2 e
        · rintro b (rfl | hb)
          · exact ⟨hf, hg⟩
          · exact ⟨((h2 _ _ _).1 (hall b hb).1).1, (hall b hb).2⟩
    · rintro ⟨⟨hk, hn⟩, hall, he⟩
      rw [(h1 s a (set s a) hi).2 ⟨(hall a (.inl rfl)).1, (hall a (.inl rfl)).2, rfl⟩]
      refine (ih _ _ (h3 _ _ hi)).2 ⟨hn, ?_, he⟩
      intro b hb
      refine ⟨(h2 _ _ _).2 ⟨(hall b (.inr hb)).1, ?_⟩, (hall b (.inr hb)).2⟩
      intro e
      exact hk (List.mem_map.2 ⟨b, hb, e⟩)

theorem slot_given {σ α κ β : Type} (set : σ → α → σ) (kind : α → κ) (π : σ → β) (c : α → Option β) (k : κ)
    (hk : ∀ a, kind a = k → ∀ s v, c a = some v → π (set s a) = v) (ho : ∀ a, kind a ≠ k → ∀ s, π (set s a) = π s) :
    ∀ (as : List α) s a v, (as.map kind).Nodup → a ∈ as → kind a = k → c a = some v → π (as.foldl set s) = v := by
  have keep : ∀ (as : List α) s, (∀ a ∈ as, kind a ≠ k) → π (as.foldl set s) = π s := by
    intro as
    induction as with
    | nil => intro s _; rfl
    | cons a as ih => intro s h; rw [List.foldl_cons, ih _ (fun b hb => h b (by simp [hb])), ho a (h a (by simp))]
  intro as
  induction as with
  | nil => intro s a v _ ha; cases ha
  | cons b as ih =>
    intro s a v hn ha hka hc
    simp only [List.map_cons, List.nodup_cons] at hn
    rw [List.foldl_cons]
    rcases List.mem_cons.1 ha with e | ha'
    · subst e
      rw [keep as _ (by intro x hx e; exact hn.1 (List.mem_map.2 ⟨x, hx, by rw [e, hka]⟩))]
      exact hk a hka s v hc
    · exact ih _ a v hn.2 ha' hka hc

theorem slot_default {σ α κ β : Type} (set : σ → α → σ) (kind : α → κ) (π : σ → β) (k : κ) (ho : ∀ a, kind a ≠ k → ∀ s, π (set s a) = π s) :
    ∀ (as : List α) s, (∀ a ∈ as, kind a ≠ k) → π (as.foldl set s) = π s := by
  intro as
  induction as with
  | nil => intro s _; rfl
  | cons a as ih => intro s h; rw [List.foldl_cons, ih _ (fun b hb => h b (by simp [hb])), ho a (h a (by simp))]

/-! ## the arguments of tasks -/

def setArg (s : St) : GArg → St
  | .binds i => { s with binds := some i }
  | .priority n => { s with priority := some n }
  | .shared l => { s with shared := some l }
  | .locals l => { s with locals := some l }
  | .localTask b => { s with localTask := some b }

def freeSlot (s : St) : GKind → Prop
  | .binds => s.binds = none
  | .priority => s.priority = none
  | .shared => s.shared = none
  | .locals => s.locals = none
  | .localTask => s.localTask = none

def goodArg : GArg → Prop
  | .binds _ => True
  | .priority n => n ≤ 255
  | .shared l => (l.map Prod.fst).Nodup
  | .locals l => l ≠ [] ∧ (l.map Prod.fst).Nodup
  | .localTask _ => True

instance (a : GArg) : Decidable (goodArg a) := by
  cases a with
  | locals l => cases l <;> simp only [goodArg] <;> infer_instance
  | _ => simp only [goodArg] <;> infer_instance

instance (s : St) (k : GKind) : Decidable (freeSlot s k) := by
  cases k <;> simp only [freeSlot]
  · cases s.binds <;> simp <;> infer_instance
  · cases s.priority <;> simp <;> infer_instance
  · cases s.shared <;> simp <;> infer_instance
  · cases s.locals <;> simp <;> infer_instance
  · cases s.localTask <;> simp <;> infer_instance

/-- one argument -/
def semArg (s : St) (a : GArg) : Option St := if freeSlot s a.kind ∧ goodArg a then some (setArg s a) else none

theorem semArg_iff (s : St) (a : GArg) (s' : St) : semArg s a = some s' ↔ freeSlot s a.kind ∧ goodArg a ∧ s' = setArg s a := by
  simp only [semArg]
  split <;> grind

theorem free_set (s : St) (a : GArg) (k : GKind) : freeSlot (setArg s a) k ↔ freeSlot s k ∧ k ≠ a.kind := by
  cases a <;> cases k <;> simp [setArg, freeSlot, GArg.kind]

theorem arg_lt {syn : Syn} {ts a r} (h : Arg syn ts a r) : r.length < ts.length := by
  cases h <;> simp only [List.length_cons] <;> omega

theorem sharedArg_iff (syn : Syn) (s : St) (ts : List Tok) (s' : St) (r : List Tok) : sharedArg syn s ts = some (s', r) ↔
    ∃ inner l, ts = .bracket inner :: r ∧ CommaList (SharedItem syn) inner l ∧ semArg s (.shared l) = some s' := by
  simp only [sharedArg, semArg_iff, freeSlot, GArg.kind, goodArg, setArg]
  cases hs : s.shared with
  | some x => simp
  | none =>
    simp only [Option.isSome_none, Bool.false_eq_true, if_false, true_and]
    constructor
    · intro h
      split at h
      next m r' hp =>
        cases h
        obtain ⟨inner, rfl, hl, hn⟩ := (parseShared_iff _ _ _ _).1 hp
        exact ⟨inner, m, rfl, hl, hn, rfl⟩
      next => cases h
    · rintro ⟨inner, l, rfl, hl, hn, rfl⟩
      rw [(parseShared_iff _ _ _ _).2 ⟨inner, rfl, hl, hn⟩]

theorem localArg_iff (syn : Syn) (s : St) (ts : List Tok) (s' : St) (r : List Tok) : localArg syn s ts = some (s', r) ↔
    ∃ inner l, ts = .bracket inner :: r ∧ LocalList syn inner l ∧ semArg s (.locals l) = some s' := by
  simp only [localArg, semArg_iff, freeSlot, GArg.kind, goodArg, setArg]
  cases hs : s.locals with
  | some x => simp
  | none =>
    simp only [Option.isSome_none, Bool.false_eq_true, if_false, true_and]
    constructor
    · intro h
      split at h
      next m r' hp =>
        cases h
        obtain ⟨inner, rfl, hl, hne, hn⟩ := (parseLocal_iff _ _ _ _).1 hp
        exact ⟨inner, m, rfl, hl, ⟨hne, hn⟩, rfl⟩
      next => cases h
    · rintro ⟨inner, l, rfl, hl, ⟨hne, hn⟩, rfl⟩
      rw [(parseLocal_iff _ _ _ _).2 ⟨inner, rfl, hl, hne, hn⟩]

theorem bindsArg_iff (s : St) (ts : List Tok) (s' : St) (r : List Tok) : bindsArg s ts = some (s', r) ↔ ∃ i, ts = .ident i :: r ∧ semArg s (.binds i) = some s' := by
  simp only [semArg_iff, freeSlot, GArg.kind, goodArg, setArg, true_and]
  match ts with
  | .ident i :: ts =>
    simp only [bindsArg]
    cases hs : s.binds with
    | some x => simp
    | none => simp; grind
  | [] | .eq :: _ | .comma :: _ | .colon :: _ | .amp :: _ | .int _ _ :: _ | .bool _ :: _ | .bracket _ :: _ | .attr _ :: _ | .other _ :: _ => simp [bindsArg]

theorem priorityArg_iff (s : St) (ts : List Tok) (s' : St) (r : List Tok) :
    priorityArg s ts = some (s', r) ↔ ∃ n, ts = .int n false :: r ∧ semArg s (.priority n) = some s' := by
  simp only [semArg_iff, freeSlot, GArg.kind, goodArg, setArg]
  match ts with
  | .int n suf :: ts =>
    simp only [priorityArg]
    cases hs : s.priority with
    | some x => simp
    | none =>
      cases suf with
      | true => simp
      | false =>
        by_cases hn : n ≤ 255
        · simp [hn]; grind
        · simp [hn]
  | [] | .eq :: _ | .comma :: _ | .colon :: _ | .amp :: _ | .ident _ :: _ | .bool _ :: _ | .bracket _ :: _ | .attr _ :: _ | .other _ :: _ => simp [priorityArg]

theorem localTaskArg_iff (s : St) (ts : List Tok) (s' : St) (r : List Tok) : localTaskArg s ts = some (s', r) ↔
    (ts = r ∧ (∀ r', r ≠ .eq :: r') ∧ semArg s (.localTask true) = some s') ∨ ∃ b, ts = .eq :: .bool b :: r ∧ semArg s (.localTask b) = some s' := by
  have sem : ∀ b, s.localTask = none → semArg s (.localTask b) = some { s with localTask := some b } := by
    intro b hs; exact (semArg_iff _ _ _).2 ⟨hs, trivial, rfl⟩
  have sem' : ∀ b x, s.localTask = some x → semArg s (.localTask b) ≠ some s' := by
    intro b x hs h
    have h1 : s.localTask = none := ((semArg_iff _ _ _).1 h).1
    rw [hs] at h1; cases h1
  constructor
  · intro h
    match ts with
    | .eq :: .bool b :: ts =>
      simp only [localTaskArg] at h
      cases hs : s.localTask with
      | some x => simp [hs] at h
      | none => simp [hs] at h; obtain ⟨rfl, rfl⟩ := h; exact .inr ⟨b, rfl, sem b hs⟩
    | [.eq] | .eq :: .eq :: _ | .eq :: .comma :: _ | .eq :: .colon :: _ | .eq :: .amp :: _ | .eq :: .int _ _ :: _ | .eq :: .ident _ :: _ | .eq :: .bracket _ :: _ | .eq :: .attr _ :: _ | .eq :: .other _ :: _ =>
      cases h
    | [] | .comma :: _ | .colon :: _ | .amp :: _ | .ident _ :: _ | .bool _ :: _ | .bracket _ :: _ | .attr _ :: _ | .other _ :: _ | .int _ _ :: _ =>
      simp only [localTaskArg] at h
      cases hs : s.localTask with
      | some x => simp [hs] at h
      | none => simp [hs] at h; obtain ⟨rfl, rfl⟩ := h; exact .inl ⟨rfl, (by intro r' e; cases e), sem true hs⟩
  · rintro (⟨rfl, h1, h2⟩ | ⟨b, rfl, h2⟩)
    · cases hs : s.localTask with
      | some x => exact absurd h2 (sem' _ x hs)
      | none =>
        rw [sem true hs] at h2
        cases h2
        match ts with
        | .eq :: r' => exact absurd rfl (h1 r')
        | [] | .comma :: _ | .colon :: _ | .amp :: _ | .ident _ :: _ | .bool _ :: _ | .bracket _ :: _ | .attr _ :: _ | .other _ :: _ | .int _ _ :: _ =>
          simp [localTaskArg, hs]
    · cases hs : s.localTask with
      | some x => exact absurd h2 (sem' _ x hs)
      | none =>
        rw [sem b hs] at h2
        cases h2
        simp [localTaskArg, hs]

theorem taskArg_iff (syn : Syn) (s : St) (ts : List Tok) (s' : St) (r : List Tok) : taskArg syn s ts = some (s', r) ↔ ∃ a, Arg syn ts a r ∧ semArg s a = some s' := by
  constructor
  · intro h
    match ts with
    | .ident k :: ts =>
      simp only [taskArg] at h
      split at h
      next hk =>
        subst hk
        rcases (localTaskArg_iff _ _ _ _).1 h with ⟨rfl, h1, h2⟩ | ⟨b, rfl, h2⟩
        · exact ⟨_, .localTask h1, h2⟩
        · exact ⟨_, .localTaskValue, h2⟩
      next hk =>
        match ts with
        | .eq :: ts =>
          simp only at h
          split at h
          next hk => subst hk; obtain ⟨i, rfl, h2⟩ := (bindsArg_iff _ _ _ _).1 h; exact ⟨_, .binds, h2⟩
          next =>
            split at h
            next hk => subst hk; obtain ⟨i, rfl, h2⟩ := (priorityArg_iff _ _ _ _).1 h; exact ⟨_, .priority, h2⟩
            next =>
              split at h
              next hk => subst hk; obtain ⟨i, l, rfl, h1, h2⟩ := (sharedArg_iff _ _ _ _ _).1 h; exact ⟨_, .shared h1, h2⟩
              next =>
                split at h
                next hk => subst hk; obtain ⟨i, l, rfl, h1, h2⟩ := (localArg_iff _ _ _ _ _).1 h; exact ⟨_, .locals h1, h2⟩
                next => cases h
        | [] | .comma :: _ | .colon :: _ | .amp :: _ | .ident _ :: _ | .bool _ :: _ | .bracket _ :: _ | .attr _ :: _ | .other _ :: _ | .int _ _ :: _ => cases h
    | [] | .eq :: _ | .comma :: _ | .colon :: _ | .amp :: _ | .bool _ :: _ | .bracket _ :: _ | .attr _ :: _ | .other _ :: _ | .int _ _ :: _ => cases h
  · rintro ⟨a, h, hs⟩
    cases h with
    | binds => exact (bindsArg_iff _ _ _ _).2 ⟨_, rfl, hs⟩
    | priority => exact (priorityArg_iff _ _ _ _).2 ⟨_, rfl, hs⟩
    | shared h => exact (sharedArg_iff _ _ _ _ _).2 ⟨_, _, rfl, h, hs⟩
    | locals h => exact (localArg_iff _ _ _ _ _).2 ⟨_, _, rfl, h, hs⟩
    | localTask h => exact (localTaskArg_iff _ _ _ _).2 (.inl ⟨rfl, h, hs⟩)
    | localTaskValue => exact (localTaskArg_iff _ _ _ _).2 (.inr ⟨_, rfl, hs⟩)

theorem idleArg_iff (syn : Syn) (s : St) (ts : List Tok) (s' : St) (r : List Tok) :
    idleArg syn s ts = some (s', r) ↔ ∃ a, (Arg syn ts a r ∧ (a.kind = .shared ∨ a.kind = .locals)) ∧ semArg s a = some s' := by
  constructor
  · intro h
    match ts with
    | .ident k :: .eq :: ts =>
      simp only [idleArg] at h
      split at h
      next hk => subst hk; obtain ⟨i, l, rfl, h1, h2⟩ := (sharedArg_iff _ _ _ _ _).1 h; exact ⟨_, ⟨.shared h1, .inl rfl⟩, h2⟩
      next =>
        split at h
        next hk => subst hk; obtain ⟨i, l, rfl, h1, h2⟩ := (localArg_iff _ _ _ _ _).1 h; exact ⟨_, ⟨.locals h1, .inr rfl⟩, h2⟩
        next => cases h
    | [.ident _] | .ident _ :: .ident _ :: _ | .ident _ :: .comma :: _ | .ident _ :: .colon :: _ | .ident _ :: .amp :: _ | .ident _ :: .bool _ :: _ | .ident _ :: .bracket _ :: _ | .ident _ :: .attr _ :: _ | .ident _ :: .other _ :: _ | .ident _ :: .int _ _ :: _ => cases h
    | [] | .eq :: _ | .comma :: _ | .colon :: _ | .amp :: _ | .bool _ :: _ | .bracket _ :: _ | .attr _ :: _ | .other _ :: _ | .int _ _ :: _ => cases h
  · rintro ⟨a, ⟨h, hk⟩, hs⟩
    cases h with
    | shared h => exact (sharedArg_iff _ _ _ _ _).2 ⟨_, _, rfl, h, hs⟩
    | locals h => exact (localArg_iff _ _ _ _ _).2 ⟨_, _, rfl, h, hs⟩
    | _ => simp [GArg.kind] at hk

theorem initArg_iff (syn : Syn) (s : St) (ts : List Tok) (s' : St) (r : List Tok) :
    initArg syn s ts = some (s', r) ↔ ∃ a, (Arg syn ts a r ∧ a.kind = .locals) ∧ semArg s a = some s' := by
  constructor
  · intro h
    match ts with
    | .ident k :: .eq :: ts =>
      simp only [initArg] at h
      split at h
      next hk => subst hk; obtain ⟨i, l, rfl, h1, h2⟩ := (localArg_iff _ _ _ _ _).1 h; exact ⟨_, ⟨.locals h1, rfl⟩, h2⟩
      next => cases h
    | [.ident _] | .ident _ :: .ident _ :: _ | .ident _ :: .comma :: _ | .ident _ :: .colon :: _ | .ident _ :: .amp :: _ | .ident _ :: .bool _ :: _ | .ident _ :: .bracket _ :: _ | .ident _ :: .attr _ :: _ | .ident _ :: .other _ :: _ | .ident _ :: .int _ _ :: _ => cases h
    | [] | .eq :: _ | .comma :: _ | .colon :: _ | .amp :: _ | .bool _ :: _ | .bracket _ :: _ | .attr _ :: _ | .other _ :: _ | .int _ _ :: _ => cases h
  · rintro ⟨a, ⟨h, hk⟩, hs⟩
    cases h with
    | locals h => exact (localArg_iff _ _ _ _ _).2 ⟨_, _, rfl, h, hs⟩
    | _ => simp [GArg.kind] at hk

/-! ## the values -/

theorem fine_iff (as : List GArg) : Fine as ↔ (as.map GArg.kind).Nodup ∧ ∀ a ∈ as, freeSlot {} a.kind ∧ goodArg a := by
  have hfree : ∀ k, freeSlot {} k := by intro k; cases k <;> rfl
  constructor
  · intro h
    refine ⟨h.once, fun a ha => ⟨hfree _, ?_⟩⟩
    cases a with
    | binds => trivial
    | priority n => exact h.priority n ha
    | shared l => exact h.shared l ha
    | locals l => exact h.locals l ha
    | localTask => trivial
  · rintro ⟨h1, h2⟩
    exact ⟨h1, fun n hn => (h2 _ hn).2, fun n hn => (h2 _ hn).2, fun n hn => (h2 _ hn).2⟩

theorem fold_fine (as : List GArg) (s' : St) : as.foldlM semArg {} = some s' ↔ Fine as ∧ s' = as.foldl setArg {} := by
  rw [fold_iff (fun _ => True) semArg setArg freeSlot GArg.kind goodArg (fun s a s' _ => semArg_iff s a s') free_set (fun _ _ _ => trivial) as {} s' trivial, fine_iff]
  grind

/-- a slot after all arguments -/
theorem slot {β : Type} (c : β → GArg) (π : St → Option β) (k : GKind) (hc : ∀ v, (c v).kind = k) (hinv : ∀ a, a.kind = k → ∃ v, a = c v)
    (hset : ∀ s v, π (setArg s (c v)) = some v) (ho : ∀ a, a.kind ≠ k → ∀ s, π (setArg s a) = π s) (h0 : π {} = none)
    (as : List GArg) (hn : (as.map GArg.kind).Nodup) :
    (∀ v, π (as.foldl setArg {}) = some v ↔ c v ∈ as) ∧ (π (as.foldl setArg {}) = none ↔ ∀ v, c v ∉ as) := by
  have given : ∀ v, c v ∈ as → π (as.foldl setArg {}) = some v := by
    intro v hv
    refine slot_given setArg GArg.kind π (fun a => some (π (setArg {} a))) k ?_ ho as {} (c v) (some v) hn hv (hc v) (by simp [hset])
    intro a ha s w hw
    obtain ⟨v', rfl⟩ := hinv a ha
    rw [hset] at *
    simpa using hw
  have dflt : (∀ v, c v ∉ as) → π (as.foldl setArg {}) = none := by
    intro h
    rw [slot_default setArg GArg.kind π k ho as {} ?_, h0]
    intro a ha e
    obtain ⟨v, rfl⟩ := hinv a e
    exact h v ha
  refine ⟨fun v => ⟨fun h => ?_, given v⟩, fun h v hv => ?_, dflt⟩
  · by_cases hex : ∃ w, c w ∈ as
    · obtain ⟨w, hw⟩ := hex
      rw [given w hw] at h
      cases h
      exact hw
    · rw [dflt (fun w hw => hex ⟨w, hw⟩)] at h
      cases h
  · rw [given v hv] at h
    cases h

theorem valueOr_iff {β : Type} (c : β → GArg) (o : Option β) (d : β) (as : List GArg) (h : (∀ v, o = some v ↔ c v ∈ as) ∧ (o = none ↔ ∀ v, c v ∉ as)) (v : β) :
    ValueOr c d as v ↔ o.getD d = v := by
  simp only [ValueOr]
  cases o with
  | none =>
    have hn := h.2.1 rfl
    simp only [Option.getD_none]
    constructor
    · rintro (h' | ⟨-, rfl⟩)
      · exact absurd h' (hn v)
      · rfl
    · rintro rfl; exact .inr ⟨hn, rfl⟩
  | some w =>
    have hw := (h.1 w).1 rfl
    simp only [Option.getD_some]
    constructor
    · rintro (h' | ⟨h', -⟩)
      · have := (h.1 v).2 h'; cases this; rfl
      · exact absurd hw (h' w)
    · rintro rfl; exact .inl hw

theorem slot_binds (as : List GArg) (hn : (as.map GArg.kind).Nodup) :
    (∀ v, (as.foldl setArg {}).binds = some v ↔ .binds v ∈ as) ∧ ((as.foldl setArg {}).binds = none ↔ ∀ v, .binds v ∉ as) :=
  slot .binds St.binds .binds (fun _ => rfl) (fun a h => by cases a <;> simp_all [GArg.kind]) (fun _ _ => rfl) (fun a h _ => by cases a <;> simp_all [GArg.kind, setArg]) rfl as hn

theorem slot_priority (as : List GArg) (hn : (as.map GArg.kind).Nodup) :
    (∀ v, (as.foldl setArg {}).priority = some v ↔ .priority v ∈ as) ∧ ((as.foldl setArg {}).priority = none ↔ ∀ v, .priority v ∉ as) :=
  slot .priority St.priority .priority (fun _ => rfl) (fun a h => by cases a <;> simp_all [GArg.kind]) (fun _ _ => rfl) (fun a h _ => by cases a <;> simp_all [GArg.kind, setArg]) rfl as hn

theorem slot_shared (as : List GArg) (hn : (as.map GArg.kind).Nodup) :
    (∀ v, (as.foldl setArg {}).shared = some v ↔ .shared v ∈ as) ∧ ((as.foldl setArg {}).shared = none ↔ ∀ v, .shared v ∉ as) :=
  slot .shared St.shared .shared (fun _ => rfl) (fun a h => by cases a <;> simp_all [GArg.kind]) (fun _ _ => rfl) (fun a h _ => by cases a <;> simp_all [GArg.kind, setArg]) rfl as hn

theorem slot_locals (as : List GArg) (hn : (as.map GArg.kind).Nodup) :
    (∀ v, (as.foldl setArg {}).locals = some v ↔ .locals v ∈ as) ∧ ((as.foldl setArg {}).locals = none ↔ ∀ v, .locals v ∉ as) :=
  slot .locals St.locals .locals (fun _ => rfl) (fun a h => by cases a <;> simp_all [GArg.kind]) (fun _ _ => rfl) (fun a h _ => by cases a <;> simp_all [GArg.kind, setArg]) rfl as hn

theorem slot_localTask (as : List GArg) (hn : (as.map GArg.kind).Nodup) :
    (∀ v, (as.foldl setArg {}).localTask = some v ↔ .localTask v ∈ as) ∧ ((as.foldl setArg {}).localTask = none ↔ ∀ v, .localTask v ∉ as) :=
  slot .localTask St.localTask .localTask (fun _ => rfl) (fun a h => by cases a <;> simp_all [GArg.kind]) (fun _ _ => rfl) (fun a h _ => by cases a <;> simp_all [GArg.kind, setArg]) rfl as hn


theorem taskFinish_iff (as : List GArg) (hf : Fine as) (r : Sum HwArgs SwArgs) : taskFinish (as.foldl setArg {}) = some r ↔ TaskMeans as r := by
  have hb := slot_binds as hf.once
  have hp := slot_priority as hf.once
  have hs := slot_shared as hf.once
  have hl := slot_locals as hf.once
  have ht := slot_localTask as hf.once
  generalize as.foldl setArg {} = s at hb hp hs hl ht
  simp only [taskFinish]
  constructor
  · intro h
    split at h
    next b eb =>
      split at h
      next => cases h
      next h0 =>
        cases h
        refine .hardware hf ((hb.1 b).1 eb) ((valueOr_iff _ _ _ _ hp _).2 rfl) h0 ((valueOr_iff _ _ _ _ hs _).2 rfl) ((valueOr_iff _ _ _ _ hl _).2 rfl)
    next eb =>
      cases h
      exact .software hf (hb.2.1 eb) ((valueOr_iff _ _ _ _ hp _).2 rfl) ((valueOr_iff _ _ _ _ hs _).2 rfl) ((valueOr_iff _ _ _ _ hl _).2 rfl) ((valueOr_iff _ _ _ _ ht _).2 rfl)
  · intro h
    cases h with
    | hardware _ h1 h2 h3 h4 h5 =>
      rename_i hw
      have h1 := (hb.1 _).2 h1
      have h2 := (valueOr_iff _ _ _ _ hp _).1 h2
      have h4 := (valueOr_iff _ _ _ _ hs _).1 h4
      have h5 := (valueOr_iff _ _ _ _ hl _).1 h5
      rw [h1]
      simp only [h2, h4, h5, h3, if_false]
    | software _ h1 h2 h4 h5 h6 =>
      have h1 := hb.2.2 h1
      have h2 := (valueOr_iff _ _ _ _ hp _).1 h2
      have h4 := (valueOr_iff _ _ _ _ hs _).1 h4
      have h5 := (valueOr_iff _ _ _ _ hl _).1 h5
      have h6 := (valueOr_iff _ _ _ _ ht _).1 h6
      rw [h1]
      simp only [h2, h4, h5, h6]

end Verif.Grammar
