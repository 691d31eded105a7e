import Verif.Analysis.Own

/-! # Lock-free and local resource checks, failures: lemmas -/

namespace Verif.Analysis

/-! ## where failures come from -/

/-- every failure of `x` satisfies `P` -/
def Fails {α : Type} (P : Fail → Prop) (x : Res α) : Prop := ∀ f, x = .error f → P f

section
variable {α β : Type} {P : Fail → Prop}

theorem fails_ok (a : α) : Fails P (.ok a : Res α) := by intro f h; cases h
theorem fails_pure (a : α) : Fails P (pure a : Res α) := by intro f h; cases h
theorem fails_error {f : Fail} (h : P f) : Fails P (.error f : Res α) := by intro f h; cases h; assumption
theorem fails_err {e : Err} (h : P (.errors [e])) : Fails P (err e : Res α) := fails_error h
theorem fails_bind {x : Res α} {f : α → Res β} (h1 : Fails P x) (h2 : ∀ a, x = .ok a → Fails P (f a)) : Fails P (x >>= f) := by
  intro e he
  cases x with
  | error e' => cases he; exact h1 _ rfl
  | ok a => exact h2 a rfl _ he
theorem fails_ite {c : Prop} [Decidable c] {x y : Res α} (h1 : c → Fails P x) (h2 : ¬ c → Fails P y) : Fails P (if c then x else y) := by
  split
  · exact h1 ‹_›
  · exact h2 ‹_›
theorem fails_foldlM {f : β → α → Res β} {l : List α} {b : β} (h : ∀ b, ∀ a ∈ l, Fails P (f b a)) : Fails P (l.foldlM f b) := by
  induction l generalizing b with
  | nil => exact fails_pure _
  | cons a l ih =>
    rw [List.foldlM_cons]
    exact fails_bind (h _ _ List.mem_cons_self) fun b' _ => ih fun b a ha => h b a (List.mem_cons_of_mem _ ha)
theorem fails_forM {f : α → Res Unit} {l : List α} (h : ∀ a ∈ l, Fails P (f a)) : Fails P (l.forM f) := by
  induction l with
  | nil => exact fails_pure _
  | cons a l ih => exact fails_bind (h _ List.mem_cons_self) fun _ _ => ih fun a ha => h a (List.mem_cons_of_mem _ ha)
theorem fails_mapM {f : α → Res β} {l : List α} (h : ∀ a ∈ l, Fails P (f a)) : Fails P (l.mapM f) := by
  induction l with
  | nil => exact fails_pure _
  | cons a l ih =>
    rw [List.mapM_cons]
    exact fails_bind (h _ List.mem_cons_self) fun _ _ => fails_bind (ih fun a ha => h a (List.mem_cons_of_mem _ ha)) fun _ _ => fails_pure _
end

/-- errors reported by the parser and the checks before and after the analysis, never by `syntax::analyze` -/
def Err.plain : Err → Bool
  | .lockFreeAsync _ | .lockFreeStruct _ | .lockFreePrio _ | .localShared _ | .prioZeroIdle _ => false
  | _ => true

/-- failures which consist of one plain error or a missing item -/
def PlainFail (f : Fail) : Prop := f = .missing ∨ ∃ e, f = .errors [e] ∧ e.plain = true

theorem plain_err {α : Type} {e : Err} (h : e.plain = true) : Fails PlainFail (err e : Res α) := fails_err (.inr ⟨e, rfl, h⟩)

theorem plain_insertNew {α : Type} {e : Err} (h : e.plain = true) {m : Map α} {kv : Ident × α} : Fails PlainFail (insertNew e m kv) :=
  fails_ite (fun _ => plain_err h) (fun _ => fails_ok _)

theorem plain_taskArg (s : ArgSt) (a : TaskArg) : Fails PlainFail (taskArg s a) := by
  cases a with
  | localTask b => exact fails_ite (fun _ => plain_err rfl) (fun _ => fails_ok _)
  | binds b => exact fails_ite (fun _ => plain_err rfl) (fun _ => fails_ok _)
  | priority n => exact fails_ite (fun _ => plain_err rfl) (fun _ => fails_ite (fun _ => plain_err rfl) (fun _ => fails_ok _))
  | shared l =>
    exact fails_ite (fun _ => plain_err rfl) (fun _ => fails_bind (fails_foldlM fun _ _ _ => plain_insertNew rfl) fun _ _ => fails_pure _)
  | locals l =>
    exact fails_ite (fun _ => plain_err rfl) (fun _ => fails_bind
      (fails_bind (fails_foldlM fun _ _ _ => plain_insertNew rfl) fun _ _ => fails_ite (fun _ => plain_err rfl) fun _ => fails_pure _) fun _ _ => fails_pure _)
  | other => exact plain_err rfl

theorem plain_taskArgs (args : List TaskArg) (ins : List Ty) : Fails PlainFail (taskArgs args ins) := by
  unfold taskArgs
  refine fails_bind (fails_foldlM fun _ _ _ => plain_taskArg _ _) fun s _ => ?_
  split
  · exact fails_ite (fun _ => plain_err rfl) fun _ => fails_pure _
  · exact fails_pure _

theorem plain_initArgs (args : List TaskArg) : Fails PlainFail (initArgs args) := by
  unfold initArgs
  refine fails_bind (fails_foldlM fun _ a _ => ?_) fun s _ => fails_ite (fun _ => plain_err rfl) fun _ => fails_pure _
  split
  · exact plain_taskArg _ _
  · exact plain_err rfl

theorem plain_idleArgs (args : List TaskArg) : Fails PlainFail (idleArgs args) := by
  unfold idleArgs
  refine fails_bind (fails_foldlM fun _ a _ => ?_) fun s _ => fails_pure _
  split
  · exact plain_taskArg _ _
  · exact plain_taskArg _ _
  · exact plain_err rfl

theorem plain_checkIdent (s : PSt) (i : Ident) : Fails PlainFail (checkIdent s i) := fails_ite (fun _ => plain_err rfl) (fun _ => fails_ok _)
theorem plain_checkBinding (s : PSt) (i : Ident) : Fails PlainFail (checkBinding s i) := fails_ite (fun _ => plain_err rfl) (fun _ => fails_ok _)

theorem plain_parseItem (s : PSt) (a : Item) : Fails PlainFail (parseItem s a) := by
  cases a with
  | init name args sigOk us ul =>
    exact fails_bind (plain_initArgs _) fun _ _ => fails_ite (fun _ => plain_err rfl) fun _ =>
      fails_bind (plain_checkIdent _ _) fun _ _ => fails_ite (fun _ => fails_pure _) fun _ => plain_err rfl
  | idle name args sigOk =>
    exact fails_bind (plain_idleArgs _) fun _ _ => fails_ite (fun _ => plain_err rfl) fun _ =>
      fails_bind (plain_checkIdent _ _) fun _ _ => fails_ite (fun _ => fails_pure _) fun _ => plain_err rfl
  | task name args isAsync ins sigOk =>
    refine fails_ite (fun _ => plain_err rfl) fun _ => fails_bind (plain_taskArgs _ _) fun a _ => ?_
    cases a with
    | inl t =>
      exact fails_bind (plain_checkBinding _ _) fun _ _ => fails_bind (plain_checkIdent _ _) fun _ _ => fails_ite (fun _ => fails_pure _) fun _ => plain_err rfl
    | inr t => exact fails_bind (plain_checkIdent _ _) fun _ _ => fails_ite (fun _ => fails_pure _) fun _ => plain_err rfl
  | sharedStruct i f =>
    exact fails_ite (fun _ => plain_err rfl) fun _ => fails_bind (fails_foldlM fun _ _ _ => plain_insertNew rfl) fun _ _ => fails_pure _
  | localStruct i f =>
    exact fails_ite (fun _ => plain_err rfl) fun _ => fails_bind (fails_foldlM fun _ _ _ => plain_insertNew rfl) fun _ _ => fails_pure _
  | other => exact fails_ok _

theorem plain_parse (raw : Raw) : Fails PlainFail (parse raw) := by
  unfold parse
  refine fails_bind (fails_bind (fails_foldlM fun _ _ _ => plain_insertNew rfl) fun _ _ => fails_pure _) fun _ _ =>
    fails_bind (fails_foldlM fun _ _ _ => plain_parseItem _ _) fun s _ => ?_
  split
  · exact fails_ite (fun _ => plain_err rfl) fun _ => fails_ite (fun _ => plain_err rfl) fun _ => fails_pure _
  · exact fails_error (.inl rfl)

theorem plain_check (app : App) : Fails PlainFail (check app) := by
  unfold check
  exact fails_bind (fails_forM fun _ _ => fails_ite (fun _ => fails_ok _) fun _ => plain_err rfl) fun _ _ =>
    fails_bind (fails_forM fun _ _ => fails_ite (fun _ => fails_ok _) fun _ => plain_err rfl) fun _ _ =>
    fails_bind (fails_forM fun _ _ => fails_ite (fun _ => plain_err rfl) fun _ => fails_ok _) fun _ _ =>
    fails_forM fun _ _ => fails_ite (fun _ => plain_err rfl) fun _ => fails_ok _

theorem plain_archCheck (tg : Target) (app : App) : Fails PlainFail (archCheck tg app) := by
  unfold archCheck
  exact fails_bind (fails_forM fun _ _ => fails_ite (fun _ => plain_err rfl) fun _ => fails_ok _) fun _ _ =>
    fails_ite (fun _ => fails_bind (plain_err rfl) fun _ _ => fails_forM fun _ _ => fails_ite (fun _ => plain_err rfl) fun _ => fails_ok _)
      fun _ => fails_bind (fails_ok _) fun _ _ => fails_forM fun _ _ => fails_ite (fun _ => plain_err rfl) fun _ => fails_ok _

/-! ## lock-free resources -/

/-- all (lock-free resource, task, priority, used resource) the loops look at -/
def lfUses (app : App) : List (Ident × Ident × Nat × Ident) :=
  (lockFree app).flatMap fun lf => (taskList app).flatMap fun t => t.shared.map fun r => (lf, t.name, t.priority, r)

def lfStep (app : App) (s : LfSt) (u : Ident × Ident × Nat × Ident) : LfSt := lfUse app u.1 u.2.1 u.2.2.1 s u.2.2.2

theorem lfCheck_eq (app : App) : lfCheck app = (lfUses app).foldl (lfStep app) {} := by
  unfold lfCheck lfUses
  simp only [List.foldl_flatMap, List.foldl_map]
  rfl

structure LfInv (app : App) (l : List (Ident × Ident × Nat × Ident)) (s : LfSt) : Prop where
  errs : ∀ e, e ∈ s.errors ↔ ∃ r t p, e = .lockFreeAsync r ∧ (r, t, p, r) ∈ l ∧ has app.sw t = true
  none' : ∀ r, get? s.hash r = none → ∀ t p, (r, t, p, r) ∉ l
  some' : ∀ r p, get? s.hash r = some p → ∃ t, (r, t, p, r) ∈ l
  good : ∀ r q, r ∉ s.bad → get? s.hash r = some q → ∀ t p, (r, t, p, r) ∈ l → p = q
  bad : ∀ r, r ∈ s.bad → ∃ t p t' p', (r, t, p, r) ∈ l ∧ (r, t', p', r) ∈ l ∧ p ≠ p'

theorem lf_nil (app : App) : LfInv app [] {} := by constructor <;> simp [get?]

theorem lf_step {app : App} {l : List (Ident × Ident × Nat × Ident)} {s : LfSt} (hi : LfInv app l s) (u : Ident × Ident × Nat × Ident) :
    LfInv app (l ++ [u]) (lfStep app s u) := by
  obtain ⟨lf, t, p, r⟩ := u
  have mem : ∀ r' t' p', (r', t', p', r') ∈ l ++ [(lf, t, p, r)] ↔ (r', t', p', r') ∈ l ∨ (r' = lf ∧ t' = t ∧ p' = p ∧ r' = r) := by
    intro r' t' p'; simp
  obtain ⟨h1, h2, h3, h4, h5⟩ := hi
  unfold lfStep lfUse
  simp only
  split
  · rename_i hr; subst hr
    constructor <;> simp only [mem, get?_insert]
    · intro e
      split
      · rw [List.mem_append, h1]
        constructor
        · rintro (⟨r, t, p, rfl, hm, hh⟩ | he)
          · exact ⟨r, t, p, rfl, .inl hm, hh⟩
          · simp at he; exact ⟨lf, t, p, he, .inr ⟨rfl, rfl, rfl, rfl⟩, by assumption⟩
        · rintro ⟨r, t', p', rfl, hm | ⟨rfl, rfl, rfl, -⟩, hh⟩
          · exact .inl ⟨_, _, _, rfl, hm, hh⟩
          · exact .inr (by simp)
      · rw [h1]
        constructor
        · rintro ⟨r, t, p, rfl, hm, hh⟩; exact ⟨r, t, p, rfl, .inl hm, hh⟩
        · rintro ⟨r, t', p', rfl, hm | ⟨rfl, rfl, rfl, -⟩, hh⟩
          · exact ⟨_, _, _, rfl, hm, hh⟩
          · exact absurd hh (by assumption)
    · intro r' hh t' p'
      split at hh
      · cases hh
      · rintro (hm | ⟨rfl, -⟩)
        · exact h2 r' hh _ _ hm
        · simp_all
    · intro r' q hh
      split at hh
      · rename_i hr; cases hh; subst hr; exact ⟨t, .inr ⟨rfl, rfl, rfl, rfl⟩⟩
      · obtain ⟨t', ht'⟩ := h3 r' q hh; exact ⟨t', .inl ht'⟩
    · intro r' q hb hh t' p' hm
      split at hh
      · rename_i hr
        cases hh; subst hr
        rcases hm with hm | ⟨-, -, hp, -⟩
        · cases ho : get? s.hash r' with
          | none => exact absurd hm (h2 r' ho _ _)
          | some old =>
            simp only [ho] at hb
            by_cases hpo : p = old
            · subst hpo
              by_cases hbad : r' ∈ s.bad
              · simp [hbad] at hb
              · exact h4 r' _ hbad ho _ _ hm
            · simp [hpo] at hb
        · exact hp
      · rename_i hr
        rcases hm with hm | ⟨hr', -⟩
        · refine h4 r' q ?_ hh _ _ hm
          intro hbad; apply hb
          split
          · split <;> split <;> simp [hbad]
          · exact hbad
        · exact absurd hr' hr
    · intro r' hb
      have old : r' ∈ s.bad → _ := fun hb => h5 r' hb
      by_cases hbad : r' ∈ s.bad
      · obtain ⟨t1, p1, t2, p2, a, b, c⟩ := old hbad; exact ⟨t1, p1, t2, p2, .inl a, .inl b, c⟩
      · cases ho : get? s.hash lf with
        | none => simp only [ho] at hb; exact absurd hb hbad
        | some q =>
          simp only [ho] at hb
          obtain ⟨t', ht'⟩ := h3 lf q ho
          have hrl : r' = lf := by
            split at hb <;> split at hb <;> simp [hbad] at hb <;> exact hb
          subst hrl
          by_cases hpq : p = q
          · simp [hpq, hbad] at hb
          · exact ⟨t, p, t', q, .inr ⟨rfl, rfl, rfl, rfl⟩, .inl ht', hpq⟩
  · rename_i hr
    have mem' : ∀ r' t' p', (r', t', p', r') ∈ l ++ [(lf, t, p, r)] ↔ (r', t', p', r') ∈ l := by
      intro r' t' p'; rw [mem]; constructor
      · rintro (h | ⟨e1, -, -, e2⟩)
        · exact h
        · exact absurd (e1.symm.trans e2) hr
      · exact .inl
    constructor <;> simp only [mem'] <;> assumption

theorem foldl_inv {α β : Type} {f : β → α → β} (P : List α → β → Prop) (hstep : ∀ l a b, P l b → P (l ++ [a]) (f b a)) {l pre : List α} {b : β} (h0 : P pre b) :
    P (pre ++ l) (l.foldl f b) := by
  induction l generalizing b pre with
  | nil => simpa using h0
  | cons a l ih => rw [List.foldl_cons]; have := ih (hstep _ a _ h0); simpa using this

theorem lf_inv (app : App) : LfInv app (lfUses app) (lfCheck app) := by
  rw [lfCheck_eq]
  have := foldl_inv (LfInv app) (fun _ a _ h => lf_step h a) (l := lfUses app) (lf_nil app)
  simpa using this

theorem mem_lockFree {app : App} {r : Ident} : r ∈ lockFree app ↔ ∃ res, (r, res) ∈ app.sharedRes ∧ res.lockFree = true := by
  unfold lockFree; simp

theorem mem_taskShared {app : App} {t r : Ident} {p : Nat} :
    (∃ tr ∈ taskList app, tr.name = t ∧ tr.priority = p ∧ r ∈ tr.shared) ↔ ∃ a, AppShared app t p r a := by
  unfold taskList AppShared
  simp only [List.mem_append, List.mem_map, List.mem_singleton, Option.mem_toList]
  constructor
  · rintro ⟨tr, (((rfl | ⟨i, hi, rfl⟩) | ⟨nt, hi, rfl⟩) | ⟨nt, hi, rfl⟩), rfl, rfl, hr⟩
    · cases hr
    · obtain ⟨ra, hra, rfl⟩ := List.mem_map.mp hr; exact ⟨ra.2, .inl ⟨i, hi, rfl, rfl, hra⟩⟩
    · obtain ⟨ra, hra, rfl⟩ := List.mem_map.mp hr; exact ⟨ra.2, .inr (.inr ⟨nt.2, hi, rfl, hra⟩)⟩
    · obtain ⟨ra, hra, rfl⟩ := List.mem_map.mp hr; exact ⟨ra.2, .inr (.inl ⟨nt.2, hi, rfl, hra⟩)⟩
  · rintro ⟨a, ⟨i, hi, rfl, rfl, h⟩ | ⟨h', hi, rfl, h⟩ | ⟨h', hi, rfl, h⟩⟩
    · exact ⟨_, .inl (.inl (.inr ⟨i, hi, rfl⟩)), rfl, rfl, List.mem_map.mpr ⟨_, h, rfl⟩⟩
    · exact ⟨_, .inr ⟨_, hi, rfl⟩, rfl, rfl, List.mem_map.mpr ⟨_, h, rfl⟩⟩
    · exact ⟨_, .inl (.inr ⟨_, hi, rfl⟩), rfl, rfl, List.mem_map.mpr ⟨_, h, rfl⟩⟩

theorem mem_lfUses {app : App} {r t : Ident} {p : Nat} :
    (r, t, p, r) ∈ lfUses app ↔ (∃ res, (r, res) ∈ app.sharedRes ∧ res.lockFree = true) ∧ ∃ a, AppShared app t p r a := by
  rw [← mem_lockFree, ← mem_taskShared]
  unfold lfUses
  simp only [List.mem_flatMap, List.mem_map, Prod.mk.injEq]
  constructor
  · rintro ⟨lf, hlf, tr, htr, r', hr', rfl, rfl, rfl, rfl⟩; exact ⟨hlf, tr, htr, rfl, rfl, hr'⟩
  · rintro ⟨hlf, tr, htr, rfl, rfl, hr'⟩; exact ⟨r, hlf, tr, htr, r, hr', rfl, rfl, rfl, rfl⟩

theorem mem_bad {app : App} {r : Ident} : r ∈ (lfCheck app).bad ↔ (∃ res, (r, res) ∈ app.sharedRes ∧ res.lockFree = true) ∧
    ∃ t p a t' p' a', AppShared app t p r a ∧ AppShared app t' p' r a' ∧ p ≠ p' := by
  have hi := lf_inv app
  constructor
  · intro h
    obtain ⟨t, p, t', p', h1, h2, h3⟩ := hi.bad r h
    obtain ⟨h0, a, ha⟩ := mem_lfUses.mp h1
    obtain ⟨-, a', ha'⟩ := mem_lfUses.mp h2
    exact ⟨h0, t, p, a, t', p', a', ha, ha', h3⟩
  · rintro ⟨h0, t, p, a, t', p', a', ha, ha', h3⟩
    have m1 := mem_lfUses.mpr ⟨h0, a, ha⟩
    have m2 := mem_lfUses.mpr ⟨h0, a', ha'⟩
    apply Classical.byContradiction
    intro hb
    cases ho : get? (lfCheck app).hash r with
    | none => exact hi.none' r ho _ _ m1
    | some q => exact h3 ((hi.good r q hb ho _ _ m1).trans (hi.good r q hb ho _ _ m2).symm)

/-! ## local resources -/

/-- all (field of the local struct, task, used name, kind) the loops look at -/
def lrUses (app : App) : List (Ident × Ident × Ident × TaskLocal) :=
  (app.localRes.map Prod.fst).flatMap fun lr => (taskList app).flatMap fun t => t.locals.map fun nk => (lr, t.name, nk)

def lrStep (s : LrSt) (u : Ident × Ident × Ident × TaskLocal) : LrSt := lrUse u.1 s u.2.2

theorem lrCheck_eq (app : App) : lrCheck app = (lrUses app).foldl lrStep {} := by
  unfold lrCheck lrUses
  simp only [List.foldl_flatMap, List.foldl_map]
  rfl

structure LrInv (l : List (Ident × Ident × Ident × TaskLocal)) (s : LrSt) : Prop where
  none' : ∀ r, has s.hash r = false → ∀ t, (r, t, r, .external) ∉ l
  good : ∀ r, r ∉ s.bad → (∀ t t', (r, t, r, .external) ∈ l → (r, t', r, .external) ∈ l → t = t') ∧ ∀ t ty, (r, t, r, .declared ty) ∉ l
  some' : ∀ r, has s.hash r = true → ∃ t, (r, t, r, .external) ∈ l
  bad : l.Nodup → ∀ r, r ∈ s.bad → (∃ t ty, (r, t, r, .declared ty) ∈ l) ∨ ∃ t t', t ≠ t' ∧ (r, t, r, .external) ∈ l ∧ (r, t', r, .external) ∈ l

theorem has_insert {α : Type} {m : Map α} {k k' : Ident} {v : α} : has (insert m k v) k' = (decide (k' = k) || has m k') := by
  unfold has; rw [get?_insert]; split <;> simp [*]

theorem lr_step {l : List (Ident × Ident × Ident × TaskLocal)} {s : LrSt} (hi : LrInv l s) (u : Ident × Ident × Ident × TaskLocal) : LrInv (l ++ [u]) (lrStep s u) := by
  obtain ⟨lr, t, n, k⟩ := u
  have mem : ∀ r' t' k', (r', t', r', k') ∈ l ++ [(lr, t, n, k)] ↔ (r', t', r', k') ∈ l ∨ (r' = lr ∧ t' = t ∧ r' = n ∧ k' = k) := by
    intro r' t' k'; simp
  have hnd : (l ++ [(lr, t, n, k)]).Nodup → l.Nodup ∧ (lr, t, n, k) ∉ l := by
    rw [List.nodup_append]
    rintro ⟨h1, -, h2⟩
    exact ⟨h1, fun hm => h2 _ hm _ (by simp) rfl⟩
  obtain ⟨h1, h2, h3, h4⟩ := hi
  unfold lrStep lrUse
  simp only
  split
  · rename_i hr; subst hr
    cases k with
    | external =>
      constructor <;> simp only [mem, has_insert]
      · intro r hh t'
        have hne : r ≠ lr := by intro e; simp [e] at hh
        have hh' : has s.hash r = false := by simpa [hne] using hh
        rintro (hm | ⟨e, -⟩)
        · exact h1 r hh' _ hm
        · exact hne e
      · intro r hb
        have hb0 : r ∉ s.bad := fun h => hb (by split <;> simp [h])
        obtain ⟨g1, g2⟩ := h2 r hb0
        by_cases hrl : r = lr
        · subst hrl
          have hno : has s.hash r = false := by
            cases hh : has s.hash r
            · rfl
            · simp [hh] at hb
          refine ⟨?_, ?_⟩
          · rintro t1 t2 (hm | ⟨-, rfl, -⟩) (hm' | ⟨-, rfl, -⟩)
            · exact absurd hm (h1 r hno _)
            · exact absurd hm (h1 r hno _)
            · exact absurd hm' (h1 r hno _)
            · rfl
          · rintro t1 ty (hm | ⟨-, -, -, h⟩)
            · exact g2 _ _ hm
            · cases h
        · refine ⟨?_, ?_⟩
          · rintro t1 t2 (hm | ⟨e, -⟩) (hm' | ⟨e', -⟩)
            · exact g1 _ _ hm hm'
            · exact absurd e' hrl
            · exact absurd e hrl
            · exact absurd e hrl
          · rintro t1 ty (hm | ⟨e, -⟩)
            · exact g2 _ _ hm
            · exact absurd e hrl
      · intro r hh
        by_cases hrl : r = lr
        · subst hrl; exact ⟨t, .inr ⟨rfl, rfl, rfl, trivial⟩⟩
        · have : has s.hash r = true := by simpa [hrl] using hh
          obtain ⟨t', ht'⟩ := h3 r this; exact ⟨t', .inl ht'⟩
      · intro hn r hb
        obtain ⟨hn1, hn2⟩ := hnd hn
        by_cases hb0 : r ∈ s.bad
        · rcases h4 hn1 r hb0 with ⟨t, ty, h⟩ | ⟨t1, t2, h, h', h''⟩
          · exact .inl ⟨t, ty, .inl h⟩
          · exact .inr ⟨t1, t2, h, .inl h', .inl h''⟩
        · split at hb
          · rename_i hh
            have hrl : r = lr := by simpa [hb0] using hb
            subst hrl
            obtain ⟨t', ht'⟩ := h3 r hh
            refine .inr ⟨t', t, ?_, .inl ht', .inr ⟨rfl, rfl, rfl, trivial⟩⟩
            rintro rfl; exact hn2 ht'
          · exact absurd hb hb0
    | declared ty =>
      constructor <;> simp only [mem]
      · intro r hh t'
        rintro (hm | ⟨-, -, -, e⟩)
        · exact h1 r hh _ hm
        · cases e
      · intro r hb
        have hb' : r ∉ s.bad ∧ r ≠ lr := by simpa using hb
        obtain ⟨g1, g2⟩ := h2 r hb'.1
        refine ⟨?_, ?_⟩
        · rintro t1 t2 (hm | ⟨-, -, -, e⟩) (hm' | ⟨-, -, -, e'⟩)
          · exact g1 _ _ hm hm'
          · cases e'
          · cases e
          · cases e
        · rintro t1 ty (hm | ⟨e, -⟩)
          · exact g2 _ _ hm
          · exact hb'.2 e
      · intro r hh
        obtain ⟨t', ht'⟩ := h3 r hh; exact ⟨t', .inl ht'⟩
      · intro hn r hb
        obtain ⟨hn1, hn2⟩ := hnd hn
        rcases List.mem_append.mp hb with hb | hb
        · rcases h4 hn1 r hb with ⟨t, ty, h⟩ | ⟨t1, t2, h, h', h''⟩
          · exact .inl ⟨t, ty, .inl h⟩
          · exact .inr ⟨t1, t2, h, .inl h', .inl h''⟩
        · have : r = lr := by simpa using hb
          exact .inl ⟨t, ty, .inr ⟨this, rfl, this, rfl⟩⟩
  · rename_i hr
    have mem' : ∀ r' t' k', (r', t', r', k') ∈ l ++ [(lr, t, n, k)] ↔ (r', t', r', k') ∈ l := by
      intro r' t' k'; rw [mem]; constructor
      · rintro (h | ⟨e1, -, e2, -⟩)
        · exact h
        · exact absurd (e1.symm.trans e2) hr
      · exact .inl
    constructor <;> simp only [mem']
    · exact h1
    · exact h2
    · exact h3
    · intro hn; exact h4 (hnd hn).1

theorem lr_inv (app : App) : LrInv (lrUses app) (lrCheck app) := by
  rw [lrCheck_eq]
  have := foldl_inv LrInv (fun _ a _ h => lr_step h a) (l := lrUses app) (pre := []) (b := {}) (by constructor <;> simp [has, get?])
  simpa using this

theorem mem_taskLocal {app : App} {t r : Ident} {k : TaskLocal} :
    (∃ tr ∈ taskList app, tr.name = t ∧ (r, k) ∈ tr.locals) ↔ (t = app.init.name ∧ (r, k) ∈ app.init.locals) ∨ ∃ p, AppLocal app t p r k := by
  unfold taskList AppLocal
  simp only [List.mem_append, List.mem_map, List.mem_singleton, Option.mem_toList]
  constructor
  · rintro ⟨tr, (((rfl | ⟨i, hi, rfl⟩) | ⟨nt, hi, rfl⟩) | ⟨nt, hi, rfl⟩), rfl, hr⟩
    · exact .inl ⟨rfl, hr⟩
    · exact .inr ⟨_, .inl ⟨i, hi, rfl, rfl, hr⟩⟩
    · exact .inr ⟨_, .inr (.inr ⟨nt.2, hi, rfl, hr⟩)⟩
    · exact .inr ⟨_, .inr (.inl ⟨nt.2, hi, rfl, hr⟩)⟩
  · rintro (⟨rfl, hr⟩ | ⟨p, ⟨i, hi, rfl, rfl, h⟩ | ⟨h', hi, rfl, h⟩ | ⟨h', hi, rfl, h⟩⟩)
    · exact ⟨_, .inl (.inl (.inl rfl)), rfl, hr⟩
    · exact ⟨_, .inl (.inl (.inr ⟨i, hi, rfl⟩)), rfl, h⟩
    · exact ⟨_, .inr ⟨_, hi, rfl⟩, rfl, h⟩
    · exact ⟨_, .inl (.inr ⟨_, hi, rfl⟩), rfl, h⟩

theorem mem_lrUses {app : App} {r t : Ident} {k : TaskLocal} :
    (r, t, r, k) ∈ lrUses app ↔ (∃ ty, (r, ty) ∈ app.localRes) ∧ ((t = app.init.name ∧ (r, k) ∈ app.init.locals) ∨ ∃ p, AppLocal app t p r k) := by
  rw [← mem_taskLocal]
  unfold lrUses
  simp only [List.mem_flatMap, List.mem_map, Prod.mk.injEq]
  constructor
  · rintro ⟨lr, ⟨kv, hkv, rfl⟩, tr, htr, nk, hnk, rfl, rfl, rfl⟩; exact ⟨⟨kv.2, hkv⟩, tr, htr, rfl, hnk⟩
  · rintro ⟨⟨ty, hty⟩, tr, htr, rfl, hr'⟩; exact ⟨r, ⟨_, hty, rfl⟩, tr, htr, _, hr', rfl, rfl, rfl⟩

theorem nodup_flatMap_of {α β : Type} {f : α → List β} {l : List α} (h1 : ∀ a ∈ l, (f a).Nodup) (h2 : l.Pairwise fun a b => ∀ x ∈ f a, x ∉ f b) : (l.flatMap f).Nodup := by
  induction l with
  | nil => simp
  | cons a l ih =>
    rw [List.pairwise_cons] at h2
    rw [List.flatMap_cons, List.nodup_append]
    refine ⟨h1 a List.mem_cons_self, ih (fun b hb => h1 b (List.mem_cons_of_mem _ hb)) h2.2, ?_⟩
    rintro x hx y hy rfl
    obtain ⟨b, hb, hy⟩ := List.mem_flatMap.mp hy
    exact h2.1 b hb x hx hy

theorem pairwise_of_map_nodup {α β : Type} {f : α → β} {l : List α} (h : (l.map f).Nodup) : l.Pairwise fun a b => f a ≠ f b := by
  rw [List.Nodup, List.pairwise_map] at h; exact h

theorem nodup_of_map {α β : Type} {f : α → β} {l : List α} (h : (l.map f).Nodup) : l.Nodup := by
  rw [List.Nodup, List.pairwise_map] at h
  exact h.imp fun h e => h (by rw [e])

theorem taskNames_nodup {raw : Raw} {app : App} (hs : Says raw app) : ((taskList app).map (·.name)).Nodup := by
  unfold taskList
  simp only [List.map_append, List.map_map, List.map_cons, List.map_nil]
  have e1 : ((fun x : TaskRes => x.name) ∘ fun nt : Ident × SwTask => ({ name := nt.1, shared := nt.2.shared.map Prod.fst, locals := nt.2.locals, priority := nt.2.priority } : TaskRes)) = Prod.fst := rfl
  have e2 : ((fun x : TaskRes => x.name) ∘ fun nt : Ident × HwTask => ({ name := nt.1, shared := nt.2.shared.map Prod.fst, locals := nt.2.locals, priority := nt.2.priority } : TaskRes)) = Prod.fst := rfl
  have e3 : ((fun x : TaskRes => x.name) ∘ fun i : Idle => ({ name := i.name, shared := i.shared.map Prod.fst, locals := i.locals, priority := 0 } : TaskRes)) = Idle.name := rfl
  rw [e1, e2, e3]
  rw [List.nodup_append, List.nodup_append, List.nodup_append]
  refine ⟨⟨⟨by simp, ?_, ?_⟩, hs.nodupSw, ?_⟩, hs.nodupHw, ?_⟩
  · cases app.idle <;> simp
  · intro a ha b hb
    simp only [List.mem_singleton, List.mem_map, Option.mem_toList] at ha hb
    obtain ⟨i, hi, rfl⟩ := hb
    subst ha
    exact fun e => hs.initIdle i hi e.symm
  · intro a ha b hb e
    simp only [List.mem_append, List.mem_singleton, List.mem_map, Option.mem_toList] at ha hb
    obtain ⟨nt, hnt, rfl⟩ := hb
    rcases ha with rfl | ⟨i, hi, rfl⟩
    · exact hs.initSw nt.2 (e ▸ hnt)
    · exact hs.idleSw i nt.2 hi (e ▸ hnt)
  · intro a ha b hb e
    simp only [List.mem_append, List.mem_singleton, List.mem_map, Option.mem_toList] at ha hb
    obtain ⟨nt, hnt, rfl⟩ := hb
    rcases ha with (rfl | ⟨i, hi, rfl⟩) | ⟨mt, hmt, rfl⟩
    · exact hs.initHw nt.2 (e ▸ hnt)
    · exact hs.idleHw i nt.2 hi (e ▸ hnt)
    · exact hs.hwSw nt.1 nt.2 mt.2 hnt (e ▸ hmt)

theorem taskLocals_nodup {raw : Raw} {app : App} (hs : Says raw app) {tr : TaskRes} (h : tr ∈ taskList app) : (tr.locals.map Prod.fst).Nodup := by
  unfold taskList at h
  simp only [List.mem_append, List.mem_map, List.mem_singleton, Option.mem_toList] at h
  rcases h with ((rfl | ⟨i, hi, rfl⟩) | ⟨nt, hi, rfl⟩) | ⟨nt, hi, rfl⟩
  · exact hs.initNodup
  · exact (hs.listsNodupIdle i hi).2
  · exact (hs.listsNodup nt.1 nt.2 hi).2
  · exact (hs.listsNodupHw nt.1 nt.2 hi).2

theorem lrUses_nodup {raw : Raw} {app : App} (hs : Says raw app) : (lrUses app).Nodup := by
  unfold lrUses
  refine nodup_flatMap_of (fun lr _ => nodup_flatMap_of (fun tr htr => ?_) ?_) ?_
  · have := nodup_of_map (taskLocals_nodup hs htr)
    rw [List.Nodup, List.pairwise_map]
    exact this.imp fun h e => h (by simp only [Prod.mk.injEq] at e; exact e.2.2)
  · refine (pairwise_of_map_nodup (taskNames_nodup hs)).imp fun h x hx hx' => ?_
    obtain ⟨nk, -, rfl⟩ := List.mem_map.mp hx
    obtain ⟨nk', -, e⟩ := List.mem_map.mp hx'
    simp only [Prod.mk.injEq] at e
    exact h e.2.1.symm
  · refine (pairwise_of_map_nodup (f := id) (by simpa using hs.nodupL)).imp fun h x hx hx' => ?_
    obtain ⟨tr, -, hx⟩ := List.mem_flatMap.mp hx
    obtain ⟨tr', -, hx'⟩ := List.mem_flatMap.mp hx'
    obtain ⟨nk, -, rfl⟩ := List.mem_map.mp hx
    obtain ⟨nk', -, e⟩ := List.mem_map.mp hx'
    simp only [Prod.mk.injEq] at e
    exact h e.1.symm

/-! ## all errors of the analysis -/

theorem mem_analyzeErrors {app : App} {e : Err} : e ∈ analyzeErrors app ↔
    (∃ r t p a, e = .lockFreeAsync r ∧ (∃ res, (r, res) ∈ app.sharedRes ∧ res.lockFree = true) ∧ AppShared app t p r a ∧ has app.sw t = true) ∨
    (∃ r, e = .lockFreeStruct r ∧ r ∈ (lfCheck app).bad) ∨ (∃ r, e = .lockFreePrio r ∧ r ∈ (lfCheck app).bad) ∨
    (∃ r, e = .localShared r ∧ r ∈ (lrCheck app).bad) ∨ (∃ t, e = .prioZeroIdle t ∧ app.idle.isSome = true ∧ ∃ st, (t, st) ∈ app.sw ∧ st.priority = 0) := by
  unfold analyzeErrors
  simp only [List.mem_append, List.mem_map, List.mem_filter, (lf_inv app).errs]
  constructor
  · rintro ((((⟨r, t, p, rfl, hm, hh⟩ | ⟨r, hr, rfl⟩) | ⟨r, hr, rfl⟩) | ⟨r, hr, rfl⟩) | ⟨nt, hnt, rfl⟩)
    · obtain ⟨h0, a, ha⟩ := mem_lfUses.mp hm; exact .inl ⟨r, t, p, a, rfl, h0, ha, hh⟩
    · exact .inr (.inl ⟨r, rfl, by simpa using hr.2⟩)
    · exact .inr (.inr (.inl ⟨r, rfl, hr⟩))
    · exact .inr (.inr (.inr (.inl ⟨r, rfl, hr⟩)))
    · simp at hnt; exact .inr (.inr (.inr (.inr ⟨nt.1, rfl, hnt.2.2, nt.2, hnt.1, hnt.2.1⟩)))
  · rintro (⟨r, t, p, a, rfl, h0, ha, hh⟩ | ⟨r, rfl, hr⟩ | ⟨r, rfl, hr⟩ | ⟨r, rfl, hr⟩ | ⟨t, rfl, hi, st, hst, hp⟩)
    · exact .inl (.inl (.inl (.inl ⟨r, t, p, rfl, mem_lfUses.mpr ⟨h0, a, ha⟩, hh⟩)))
    · exact .inl (.inl (.inl (.inr ⟨r, ⟨mem_lockFree.mpr (mem_bad.mp hr).1, by simpa using hr⟩, rfl⟩)))
    · exact .inl (.inl (.inr ⟨r, hr, rfl⟩))
    · exact .inl (.inr ⟨r, hr, rfl⟩)
    · exact .inr ⟨(t, st), ⟨hst, by simp [hi, hp]⟩, rfl⟩

/-- an application that passes `check` passes the rest of `analyze` without panic -/
theorem analyze_cases {app : App} (hc : check app = .ok ()) :
    (analyzeErrors app ≠ [] ∧ analyze app = .error (.errors (analyzeErrors app))) ∨ (analyzeErrors app = [] ∧ ∃ an, analyze app = .ok an) := by
  have hdecl : ∀ x ∈ sharedAccesses app, has app.sharedRes x.2.1 = true := by
    unfold check at hc
    obtain ⟨⟨⟩, h1, -⟩ := bind_ok hc
    intro x hx
    have := forM_ok.mp h1 x hx
    split at this
    · assumption
    · cases this
  unfold analyze
  by_cases he : analyzeErrors app = []
  · right
    obtain ⟨s, hs⟩ := foldlM_total (f := ownStep app) (l := sharedAccesses app) (b := {}) (fun a ha b => ownStep_total (hdecl a ha))
    refine ⟨he, ?_⟩
    simp only [he, hs]
    exact ⟨_, rfl⟩
  · left; exact ⟨he, by simp [he]⟩

end Verif.Analysis
