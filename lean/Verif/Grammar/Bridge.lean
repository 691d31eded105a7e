import Verif.Grammar.Unique
import Verif.Analysis.Accept

/-!
# The meaning agrees with `Verif.Analysis`

`Verif.Analysis.taskArgs`, `idleArgs` and `initArgs`, on which the properties of the analysis rest, are the parsers of this directory without the tokens, the initial values and the
attributes of local resources.
-/

namespace Verif.Grammar
open Verif.Analysis (Ident Access Map has TaskArg TaskLocal)

def GLocal.erase : GLocal → TaskLocal
  | .external => .external
  | .declared _ _ ty _ => .declared ty

def eraseLocals (l : List (Ident × GLocal)) : List (Ident × TaskLocal) := l.map fun kv => (kv.1, kv.2.erase)

def GArg.erase : GArg → TaskArg
  | .binds i => .binds i
  | .priority n => .priority n
  | .shared l => .shared l
  | .locals l => .locals (eraseLocals l)
  | .localTask b => .localTask b

def HwArgs.erase (h : HwArgs) : Verif.Analysis.HwTask := { binds := h.binds, priority := h.priority, shared := h.shared, locals := eraseLocals h.locals }

def SwArgs.erase (s : SwArgs) (inputs : List Verif.Analysis.Ty) : Verif.Analysis.SwTask :=
  { priority := s.priority, shared := s.shared, locals := eraseLocals s.locals, localTask := s.localTask, inputs := inputs }

def eraseTask (inputs : List Verif.Analysis.Ty) : Sum HwArgs SwArgs → Sum Verif.Analysis.HwTask Verif.Analysis.SwTask
  | .inl h => .inl h.erase
  | .inr s => .inr (s.erase inputs)

def eraseSt (s : St) : Verif.Analysis.ArgSt :=
  { binds := s.binds, priority := s.priority, shared := s.shared, locals := s.locals.map eraseLocals, localTask := s.localTask }

theorem erase_keys (l : List (Ident × GLocal)) : (eraseLocals l).map Prod.fst = l.map Prod.fst := by simp [eraseLocals, Function.comp_def]

theorem erase_nil (l : List (Ident × GLocal)) : eraseLocals l = [] ↔ l = [] := by simp [eraseLocals]

theorem step_agrees (s : St) (a : GArg) (t : Verif.Analysis.ArgSt) :
    Verif.Analysis.taskArg (eraseSt s) a.erase = .ok t ↔ ∃ s', semArg s a = some s' ∧ t = eraseSt s' := by
  have hx : ∀ (p : Prop), (∃ s', (p ∧ s' = setArg s a) ∧ t = eraseSt s') ↔ p ∧ t = eraseSt (setArg s a) := by
    intro p
    constructor
    · rintro ⟨s', ⟨h, rfl⟩, e⟩; exact ⟨h, e⟩
    · rintro ⟨h, e⟩; exact ⟨_, ⟨h, rfl⟩, e⟩
  simp only [semArg_iff, ← and_assoc]
  rw [hx]
  clear hx
  obtain ⟨sb, sp, ss, sl, st⟩ := s
  cases a with
  | binds i =>
    simp only [GArg.erase, Verif.Analysis.taskArg, GArg.kind, freeSlot, goodArg, eraseSt, setArg, and_true]
    cases sb with
    | none => simp; exact ⟨fun h => h.symm, fun h => h.symm⟩
    | some x => simp [Verif.Analysis.err]
  | localTask i =>
    simp only [GArg.erase, Verif.Analysis.taskArg, GArg.kind, freeSlot, goodArg, eraseSt, setArg, and_true]
    cases st with
    | none => simp; exact ⟨fun h => h.symm, fun h => h.symm⟩
    | some x => simp [Verif.Analysis.err]
  | priority n =>
    simp only [GArg.erase, Verif.Analysis.taskArg, GArg.kind, freeSlot, goodArg, eraseSt, setArg]
    cases sp with
    | none =>
      by_cases hn : n ≤ 255
      · have : ¬ n > 255 := by omega
        simp [hn, this]; exact ⟨fun h => h.symm, fun h => h.symm⟩
      · have : n > 255 := by omega
        simp [hn, this, Verif.Analysis.err]
    | some x => simp [Verif.Analysis.err]
  | shared l =>
    simp only [GArg.erase, Verif.Analysis.taskArg, GArg.kind, freeSlot, goodArg, eraseSt, setArg]
    cases ss with
    | none =>
      simp only [Option.isSome_none, Bool.false_eq_true, if_false, true_and]
      constructor
      · intro h
        obtain ⟨m, hm, h'⟩ := Verif.Analysis.bind_ok h
        obtain ⟨rfl, hn⟩ := Verif.Analysis.parseShared_iff.1 hm
        exact ⟨hn, (Except.ok.inj h').symm⟩
      · rintro ⟨hn, rfl⟩
        rw [Verif.Analysis.bind_eq (Verif.Analysis.parseShared_iff.2 ⟨rfl, hn⟩)]
        rfl
    | some x => simp [Verif.Analysis.err]
  | locals l =>
    simp only [GArg.erase, Verif.Analysis.taskArg, GArg.kind, freeSlot, goodArg, eraseSt, setArg]
    cases sl with
    | none =>
      simp only [Option.map_none, Option.isSome_none, Bool.false_eq_true, if_false, true_and]
      constructor
      · intro h
        obtain ⟨m, hm, h⟩ := Verif.Analysis.bind_ok h
        obtain ⟨rfl, hne, hn⟩ := Verif.Analysis.parseLocals_iff.1 hm
        rw [erase_keys] at hn
        exact ⟨⟨fun e => hne ((erase_nil l).2 e), hn⟩, (Except.ok.inj h).symm⟩
      · rintro ⟨⟨hne, hn⟩, rfl⟩
        rw [Verif.Analysis.bind_eq (Verif.Analysis.parseLocals_iff.2 ⟨rfl, fun e => hne ((erase_nil l).1 e), by rw [erase_keys]; exact hn⟩)]
        rfl
    | some x => simp [Verif.Analysis.err]

theorem fold_agrees (as : List GArg) : ∀ (s : St) (t : Verif.Analysis.ArgSt),
    (as.map GArg.erase).foldlM Verif.Analysis.taskArg (eraseSt s) = .ok t ↔ ∃ s', as.foldlM semArg s = some s' ∧ t = eraseSt s' := by
  induction as with
  | nil =>
    intro s t
    constructor
    · intro h; cases h; exact ⟨s, rfl, rfl⟩
    · rintro ⟨s', h, rfl⟩; cases h; rfl
  | cons a as ih =>
    intro s t
    rw [List.map_cons, List.foldlM_cons]
    constructor
    · intro h
      obtain ⟨t1, h1, h⟩ := Verif.Analysis.bind_ok h
      obtain ⟨s1, hs1, rfl⟩ := (step_agrees _ _ _).1 h1
      obtain ⟨s', hs', rfl⟩ := (ih _ _).1 h
      exact ⟨s', by simp [List.foldlM_cons, hs1, hs'], rfl⟩
    · rintro ⟨s', h, rfl⟩
      rw [List.foldlM_cons] at h
      cases hs : semArg s a with
      | none => rw [hs] at h; cases h
      | some s1 =>
        rw [hs] at h
        rw [Verif.Analysis.bind_eq ((step_agrees _ _ _).2 ⟨s1, hs, rfl⟩)]
        exact (ih _ _).2 ⟨s', h, rfl⟩

/-- the end of `Verif.Analysis.taskArgs` -/
def finishTask (inputs : List Verif.Analysis.Ty) (s : Verif.Analysis.ArgSt) : Verif.Analysis.Res (Sum Verif.Analysis.HwTask Verif.Analysis.SwTask) :=
  match s.binds with
  | some b =>
    let p := s.priority.getD 1
    if p = 0 then Verif.Analysis.err .hwPrioZero
    else pure (.inl { binds := b, priority := p, shared := s.shared.getD [], locals := s.locals.getD [] })
  | none => pure (.inr { priority := s.priority.getD 0, shared := s.shared.getD [], locals := s.locals.getD [], localTask := s.localTask.getD false, inputs := inputs })

theorem taskArgs_eq (args : List TaskArg) (inputs : List Verif.Analysis.Ty) :
    Verif.Analysis.taskArgs args inputs = (args.foldlM Verif.Analysis.taskArg {} >>= finishTask inputs) := rfl

theorem finish_agrees (inputs : List Verif.Analysis.Ty) (s : St) (t : Sum Verif.Analysis.HwTask Verif.Analysis.SwTask) :
    finishTask inputs (eraseSt s) = .ok t ↔ ∃ r, taskFinish s = some r ∧ t = eraseTask inputs r := by
  obtain ⟨sb, sp, ss, sl, st⟩ := s
  have hl : (sl.map eraseLocals).getD [] = eraseLocals (sl.getD []) := by cases sl <;> rfl
  cases sb with
  | none =>
    simp only [finishTask, taskFinish, eraseSt, hl]
    constructor
    · intro h; cases h; exact ⟨_, rfl, rfl⟩
    · rintro ⟨r, h, rfl⟩; cases h; rfl
  | some b =>
    simp only [finishTask, taskFinish, eraseSt, hl]
    by_cases hp : sp.getD 1 = 0
    · simp [hp, Verif.Analysis.err]
    · simp only [hp, if_false]
      constructor
      · intro h; cases h; exact ⟨_, rfl, rfl⟩
      · rintro ⟨r, h, rfl⟩; cases h; rfl

theorem task_agrees (as : List GArg) (inputs : List Verif.Analysis.Ty) (t : Sum Verif.Analysis.HwTask Verif.Analysis.SwTask) :
    Verif.Analysis.taskArgs (as.map GArg.erase) inputs = .ok t ↔ ∃ r, TaskMeans as r ∧ t = eraseTask inputs r := by
  rw [taskArgs_eq]
  constructor
  · intro h
    obtain ⟨t1, h1, h⟩ := Verif.Analysis.bind_ok h
    obtain ⟨s', hs', rfl⟩ := (fold_agrees as {} t1).1 h1
    obtain ⟨hf, rfl⟩ := (fold_fine _ _).1 hs'
    obtain ⟨r, hr, rfl⟩ := (finish_agrees _ _ _).1 h
    exact ⟨r, (taskFinish_iff as hf r).1 hr, rfl⟩
  · rintro ⟨r, hr, rfl⟩
    have hf : Fine as := by cases hr <;> assumption
    have h1 : List.foldlM Verif.Analysis.taskArg {} (as.map GArg.erase) = .ok (eraseSt (as.foldl setArg {})) := (fold_agrees as {} _).2 ⟨_, (fold_fine _ _).2 ⟨hf, rfl⟩, rfl⟩
    rw [Verif.Analysis.bind_eq h1]
    exact (finish_agrees _ _ _).2 ⟨r, (taskFinish_iff as hf r).2 hr, rfl⟩

theorem erase_kind_locals (a : GArg) : (∃ l, a.erase = .locals l) ↔ a.kind = .locals := by cases a <;> simp [GArg.erase, GArg.kind]
theorem erase_kind_shared (a : GArg) : (∃ l, a.erase = .shared l) ↔ a.kind = .shared := by cases a <;> simp [GArg.erase, GArg.kind]

theorem external_iff (l : List (Ident × GLocal)) : (∀ i, (i, GLocal.external) ∉ l) ↔ (eraseLocals l).any (fun kv => kv.2 = .external) = false := by
  induction l with
  | nil => simp [eraseLocals]
  | cons kv l ih =>
    obtain ⟨k, v⟩ := kv
    simp only [eraseLocals, List.map_cons, List.any_cons, Bool.or_eq_false_iff] at ih ⊢
    rw [← ih]
    cases v with
    | external =>
      constructor
      · intro h; exact absurd (List.mem_cons_self) (h k)
      · rintro ⟨h, -⟩; simp [GLocal.erase] at h
    | declared =>
      constructor
      · intro h; exact ⟨by simp [GLocal.erase], fun i hi => h i (List.mem_cons_of_mem _ hi)⟩
      · rintro ⟨-, h⟩ i hi
        rcases List.mem_cons.1 hi with e | hi'
        · cases e
        · exact h i hi'

theorem idle_agrees (as : List GArg) (m : Map Access × Map TaskLocal) :
    Verif.Analysis.idleArgs (as.map GArg.erase) = .ok m ↔ ∃ r, IdleMeans as r ∧ m = (r.1, eraseLocals r.2) := by
  have restrict : ∀ b, (as.map GArg.erase).foldlM (fun s a => match a with
      | .locals l => Verif.Analysis.taskArg s (.locals l)
      | .shared l => Verif.Analysis.taskArg s (.shared l)
      | _ => Verif.Analysis.err .unexpectedArg) ({} : Verif.Analysis.ArgSt) = .ok b ↔
      (∀ a ∈ as, a.kind = .shared ∨ a.kind = .locals) ∧ (as.map GArg.erase).foldlM Verif.Analysis.taskArg {} = .ok b := by
    intro b
    rw [Verif.Analysis.foldlM_restrict (f := Verif.Analysis.taskArg) (fun a => (∃ l, a = .shared l) ∨ ∃ l, a = .locals l)]
    · simp only [List.mem_map, forall_exists_index, and_imp, forall_apply_eq_imp_iff₂, erase_kind_locals, erase_kind_shared]
    · rintro s a (⟨l, rfl⟩ | ⟨l, rfl⟩) <;> rfl
    · intro s a s' h
      cases a <;> first | exact .inl ⟨_, rfl⟩ | exact .inr ⟨_, rfl⟩ | cases h
  unfold Verif.Analysis.idleArgs
  constructor
  · intro h
    obtain ⟨t1, h1, h⟩ := Verif.Analysis.bind_ok h
    obtain ⟨hk, h1⟩ := (restrict _).1 h1
    obtain ⟨s', hs', rfl⟩ := (fold_agrees as {} t1).1 h1
    obtain ⟨hf, rfl⟩ := (fold_fine _ _).1 hs'
    cases h
    refine ⟨((as.foldl setArg {}).shared.getD [], (as.foldl setArg {}).locals.getD []), ⟨hf, hk, (valueOr_iff _ _ _ _ (slot_shared as hf.once) _).2 rfl, (valueOr_iff _ _ _ _ (slot_locals as hf.once) _).2 rfl⟩, ?_⟩
    simp only [eraseSt]
    cases (as.foldl setArg {}).locals <;> rfl
  · rintro ⟨r, ⟨hf, hk, h1, h2⟩, rfl⟩
    have hfold := (restrict _).2 ⟨hk, (fold_agrees as {} _).2 ⟨_, (fold_fine _ _).2 ⟨hf, rfl⟩, rfl⟩⟩
    refine Eq.trans (Verif.Analysis.bind_eq hfold _) ?_
    rw [← (valueOr_iff _ _ _ _ (slot_shared as hf.once) _).1 h1, ← (valueOr_iff _ _ _ _ (slot_locals as hf.once) _).1 h2]
    simp only [eraseSt]
    cases (as.foldl setArg {}).locals <;> rfl

theorem init_agrees (as : List GArg) (m : Map TaskLocal) :
    Verif.Analysis.initArgs (as.map GArg.erase) = .ok m ↔ ∃ r, InitMeans as r ∧ m = eraseLocals r := by
  have restrict : ∀ b, (as.map GArg.erase).foldlM (fun s a => match a with
      | .locals l => Verif.Analysis.taskArg s (.locals l)
      | _ => Verif.Analysis.err .unexpectedArg) ({} : Verif.Analysis.ArgSt) = .ok b ↔
      (∀ a ∈ as, a.kind = .locals) ∧ (as.map GArg.erase).foldlM Verif.Analysis.taskArg {} = .ok b := by
    intro b
    rw [Verif.Analysis.foldlM_restrict (f := Verif.Analysis.taskArg) (fun a => ∃ l, a = .locals l)]
    · simp only [List.mem_map, forall_exists_index, and_imp, forall_apply_eq_imp_iff₂, erase_kind_locals]
    · rintro s a ⟨l, rfl⟩; rfl
    · intro s a s' h
      cases a <;> first | exact ⟨_, rfl⟩ | cases h
  have hl : ∀ s : St, (eraseSt s).locals.getD [] = eraseLocals (s.locals.getD []) := by intro s; simp only [eraseSt]; cases s.locals <;> rfl
  unfold Verif.Analysis.initArgs
  constructor
  · intro h
    obtain ⟨t1, h1, h⟩ := Verif.Analysis.bind_ok h
    obtain ⟨hk, h1⟩ := (restrict _).1 h1
    obtain ⟨s', hs', rfl⟩ := (fold_agrees as {} t1).1 h1
    obtain ⟨hf, rfl⟩ := (fold_fine _ _).1 hs'
    simp only [hl] at h
    split at h
    next => cases h
    next he =>
      cases h
      exact ⟨_, ⟨hf, hk, (valueOr_iff _ _ _ _ (slot_locals as hf.once) _).2 rfl, (external_iff _).2 (Bool.eq_false_iff.2 he)⟩, rfl⟩
  · rintro ⟨r, ⟨hf, hk, h1, h2⟩, rfl⟩
    have hfold := (restrict _).2 ⟨hk, (fold_agrees as {} _).2 ⟨_, (fold_fine _ _).2 ⟨hf, rfl⟩, rfl⟩⟩
    refine Eq.trans (Verif.Analysis.bind_eq hfold _) ?_
    have e := (valueOr_iff _ _ _ _ (slot_locals as hf.once) _).1 h1
    simp only [hl, e, (external_iff _).1 h2]
    rfl

end Verif.Grammar
