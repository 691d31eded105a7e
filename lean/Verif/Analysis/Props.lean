import Verif.Analysis.Dispatch

/-!
# The `#[app]` macro: theorems

All statements are about `expand tg bits raw`: the result of the macro on the raw input `raw`, and use only the vocabulary of `Spec.lean` (on the raw input) and the fields of the
generated `Program`.
-/

namespace Verif.Analysis

variable {tg : Target} {bits : Nat} {raw : Raw} {prog : Program}

/-! ## examples -/

/-- a target without exceptions among the used identifiers: identifiers from 1000 on are exceptions, 2000 on fixed ones -/
def exTarget : Target := { isException := fun i => decide (1000 ≤ i ∧ i < 2000), isFixed := fun i => decide (2000 ≤ i) }

/-- Names: 1 `Shared`, 2 `Local`, 3 `init`, 4 `idle`; resources 10 (locked), 11 (`lock_free`), 12 (shared by reference), 13 (local); tasks 20.. ; vectors 50..

```
#[app(dispatchers = [i50, i51])]
mod app {
    #[shared] struct Shared { r10: T10, #[lock_free] r11: T11, r12: T12 }
    #[local] struct Local { r13: T13 }
    #[init] fn init(..) -> (Shared, Local)
    #[idle(shared = [r10], local = [x: T30 = ..])] fn idle
    #[task(binds = i60, priority = 2, shared = [r10, r11, &r12])] fn t20
    #[task(binds = i61, priority = 2, shared = [r11])] fn t21
    #[task(priority = 1, shared = [r10], local = [r13])] async fn t22(_, a: T40)
    #[task(priority = 3, shared = [&r12])] async fn t23
    #[task(priority = 3, local_task = true)] async fn t24(_, a: T41)
}
``` -/
def exRaw : Raw :=
  { dispatchers := [50, 51],
    items := [
      .sharedStruct 1 [(10, { ty := 110, lockFree := false }), (11, { ty := 111, lockFree := true }), (12, { ty := 112, lockFree := false })],
      .localStruct 2 [(13, 113)],
      .init 3 [] true 1 2,
      .idle 4 [.shared [(10, .exclusive)], .locals [(14, .declared 30)]] true,
      .task 20 [.binds 60, .priority 2, .shared [(10, .exclusive), (11, .exclusive), (12, .shared)]] false [] true,
      .task 21 [.binds 61, .priority 2, .shared [(11, .exclusive)]] false [] true,
      .task 22 [.priority 1, .shared [(10, .exclusive)], .locals [(13, .external)]] true [40] true,
      .task 23 [.priority 3, .shared [(12, .shared)]] true [] true,
      .task 24 [.priority 3, .localTask true] true [41] true] }

/-- what the macro makes of `exRaw` -/
def exProg : Program :=
  { contexts := [
      { task := 4, priority := 0, isAsync := false, shared := [(10, .proxy)], locals := [(14, false)] },
      { task := 20, priority := 2, isAsync := false, shared := [(10, .proxy), (11, .direct), (12, .reference)], locals := [] },
      { task := 21, priority := 2, isAsync := false, shared := [(11, .direct)], locals := [] },
      { task := 22, priority := 1, isAsync := true, shared := [(10, .proxy)], locals := [(13, true)] },
      { task := 23, priority := 3, isAsync := true, shared := [(12, .reference)], locals := [] },
      { task := 24, priority := 3, isAsync := true, shared := [], locals := [] }],
    mutexes := [(10, 2), (12, 3)],
    hwHandlers := [(60, 2, 20), (61, 2, 21)],
    dispatchers := [(some 50, 1, [22]), (some 51, 3, [23, 24])],
    pends := [(22, some 50), (23, some 51), (24, some 51)],
    localSpawn := [(23, 24), (24, 24)],
    freeSpawn := [22, 23],
    sendAsserts := [110, 111, 112, 113, 40],
    syncAsserts := [112],
    asyncMax := some 1,
    main := [.disableInterrupts, .setPriority 50 1, .unmask 50, .setPriority 51 3, .unmask 51, .setPriority 60 2, .unmask 60, .setPriority 61 2, .unmask 61, .callInit,
      .writeShared 10, .writeShared 11, .writeShared 12, .writeLocal 13, .enableInterrupts, .callIdle 4] }

/-- the example is accepted; this gives all hypotheses `expand .. = .ok ..` below a non-trivial instance -/
theorem exRaw_accepted : expand exTarget 4 exRaw = .ok exProg := by decide +kernel

/-! ## C40: ceilings -/

/-- On every accepted application: if no task takes a `#[local]` resource named like the shared resource `r`, the ceiling with which `r` is locked is at least the priority of every task using
`r`, it is the priority of one of them (0 without users), and there is exactly one. Missing for the full claim: applications in which some task uses a `#[local]` resource with the
same name as a shared one; for them it is false, see `C40_ceiling_violated`. -/
theorem C40_ceiling_is_max_partial (h : expand tg bits raw = .ok prog) {r : Ident} {res : SharedRes} (hr : SharedField raw r res) (hlf : res.lockFree = false)
    (hcol : ∀ t q, ¬ UsesLocal raw t q r) :
    ∃ c, (∀ c', (r, c') ∈ prog.mutexes ↔ c' = c) ∧ (∀ t q a, UsesShared raw t q r a → q ≤ c) ∧ ((∃ t a, UsesShared raw t c r a) ∨ c = 0 ∧ ∀ t q a, ¬ UsesShared raw t q r a) := by
  obtain ⟨app, base, an, he⟩ := expand_ok h
  have hg := codegen_ok he.codegen
  have hs := he.says
  have hmem := (hs.sharedRes r res).mpr hr
  obtain ⟨s, own, hown, hlo, -, -, ho, -, -⟩ := analyze_ok he.analyze
  have hget : get? base.ownerships r = get? s.ownerships r := by
    rw [ho, hlo]
    rcases ownLocal_fold (l := allLocals app) (o := s.ownerships) (r := r) with ⟨-, h2⟩ | ⟨q, h1, -⟩
    · exact h2
    · obtain ⟨t, ht⟩ := (mem_allLocals hs.initDecl).mp h1
      exact absurd (hs.usesLocal.mpr ht) (hcol t q)
  refine ⟨ceilingOf base r, ?_, ?_, ?_⟩
  · intro c'
    rw [hg.mutexes, he.anBase]
    simp only [List.mem_map, List.mem_filter, Prod.mk.injEq]
    constructor
    · rintro ⟨kv, -, rfl, rfl⟩; rfl
    · rintro rfl; exact ⟨(r, res), ⟨hmem, by simp [hlf]⟩, rfl, rfl⟩
  · intro t q a hu
    have hm := mem_sharedAccesses.mpr ⟨t, hs.uses.mp hu⟩
    unfold ceilingOf
    rw [hget]
    cases hc : get? s.ownerships r with
    | none => exact absurd hm (hown.none r hc _ _)
    | some o => exact hown.max r o hc _ _ hm
  · unfold ceilingOf
    rw [hget]
    cases hc : get? s.ownerships r with
    | none =>
      refine .inr ⟨rfl, fun t q a hu => hown.none r hc q a (mem_sharedAccesses.mpr ⟨t, hs.uses.mp hu⟩)⟩
    | some o =>
      obtain ⟨a, ha⟩ := hown.att r o hc
      obtain ⟨t, ht⟩ := mem_sharedAccesses.mp ha
      exact .inl ⟨t, a, hs.uses.mpr ht⟩

/-- the example: resource 10 is used at priorities 0, 1 and 2, its ceiling is 2 -/
example : SharedField exRaw 10 { ty := 110, lockFree := false } ∧ UsesShared exRaw 20 2 10 .exclusive ∧ UsesShared exRaw 22 1 10 .exclusive ∧ (10, 2) ∈ exProg.mutexes := by
  refine ⟨⟨1, _, List.mem_cons_self, by decide⟩, ⟨.hardware 60, [.binds 60, .priority 2, .shared [(10, .exclusive), (11, .exclusive), (12, .shared)]], _, .hardware (as := false) (ins := [])
    (ok := true) (by decide) (by decide) (.inl (by decide)), by simp; rfl, by decide⟩, ⟨.software, [.priority 1, .shared [(10, .exclusive)], .locals [(13, .external)]], _,
    .software (as := true) (ins := [40]) (ok := true) (by decide) (by simp) (.inl (by decide)), by simp; rfl, by decide⟩, by decide⟩

/-- If a task takes a `#[local]` resource with the name of a shared resource, the ceiling of the shared resource is the priority of such a task, whatever the users of the shared resource. -/
theorem C40_ceiling_on_name_collision (h : expand tg bits raw = .ok prog) {r : Ident} {res : SharedRes} (hr : SharedField raw r res) (hlf : res.lockFree = false)
    {t : Ident} {q : Nat} (hcol : UsesLocal raw t q r) : ∃ t' c, UsesLocal raw t' c r ∧ ∀ c', (r, c') ∈ prog.mutexes ↔ c' = c := by
  obtain ⟨app, base, an, he⟩ := expand_ok h
  have hg := codegen_ok he.codegen
  have hs := he.says
  have hmem := (hs.sharedRes r res).mpr hr
  obtain ⟨s, own, hown, hlo, -, -, ho, -, -⟩ := analyze_ok he.analyze
  rcases ownLocal_fold (l := allLocals app) (o := s.ownerships) (r := r) with ⟨h1, -⟩ | ⟨c, h1, h2⟩
  · exact absurd ((mem_allLocals hs.initDecl).mpr ⟨t, hs.usesLocal.mp hcol⟩) (h1 q)
  · obtain ⟨t', ht'⟩ := (mem_allLocals hs.initDecl).mp h1
    refine ⟨t', c, hs.usesLocal.mpr ht', fun c' => ?_⟩
    have : ceilingOf base r = c := by unfold ceilingOf; rw [ho, hlo, h2]; rfl
    rw [hg.mutexes, he.anBase]
    simp only [List.mem_map, List.mem_filter, Prod.mk.injEq]
    constructor
    · rintro ⟨kv, -, rfl, rfl⟩; exact this
    · rintro rfl; exact ⟨(r, res), ⟨hmem, by simp [hlf]⟩, rfl, this⟩

/-- Shared resource 10 is used at priorities 1 and 2, and idle takes a `#[local]` resource that is also called 10. -/
def collisionRaw : Raw :=
  { dispatchers := [],
    items := [
      .sharedStruct 1 [(10, { ty := 110, lockFree := false })],
      .localStruct 2 [(10, 111)],
      .init 3 [] true 1 2,
      .idle 4 [.locals [(10, .external)]] true,
      .task 20 [.binds 60, .priority 1, .shared [(10, .exclusive)]] false [] true,
      .task 21 [.binds 61, .priority 2, .shared [(10, .exclusive)]] false [] true] }

/-- The claim is false: `collisionRaw` is accepted, the shared resource is used at priority 2, and its ceiling is 0 (so that `lock` masks nothing). -/
theorem C40_ceiling_violated : ∃ prog, expand exTarget 4 collisionRaw = .ok prog ∧ (10, 0) ∈ prog.mutexes ∧
    UsesShared collisionRaw 20 1 10 .exclusive ∧ UsesShared collisionRaw 21 2 10 .exclusive := by
  refine ⟨(expand exTarget 4 collisionRaw).toOption.get (by decide +kernel), by decide +kernel, by decide +kernel, ?_, ?_⟩
  · exact ⟨.hardware 60, [.binds 60, .priority 1, .shared [(10, .exclusive)]], _, .hardware (as := false) (ins := []) (ok := true) (by decide) (by decide) (.inl (by decide)), by simp; rfl, by decide⟩
  · exact ⟨.hardware 61, [.binds 61, .priority 2, .shared [(10, .exclusive)]], _, .hardware (as := false) (ins := []) (ok := true) (by decide) (by decide) (.inl (by decide)), by simp; rfl, by decide⟩

/-- A task gets a locking handle for exactly the resources of its list that are neither `lock_free` nor taken by reference, and there is a ceiling for every such handle. -/
theorem C40_handles (h : expand tg bits raw = .ok prog) {t : Ident} {k : Kind} {q : Nat} {args : List TaskArg} (ht : TaskIs raw t k q args) :
    ∃ c ∈ prog.contexts, c.task = t ∧ c.priority = q ∧ (c.isAsync = true ↔ k = .software) ∧
      (∀ r, (r, .proxy) ∈ c.shared ↔ (∃ l, .shared l ∈ args ∧ (r, .exclusive) ∈ l) ∧ ∃ res, SharedField raw r res ∧ res.lockFree = false) ∧
      (∀ r, (r, .direct) ∈ c.shared ↔ (∃ l, .shared l ∈ args ∧ (r, .exclusive) ∈ l) ∧ ∃ res, SharedField raw r res ∧ res.lockFree = true) ∧
      (∀ r, (r, .reference) ∈ c.shared ↔ ∃ l, .shared l ∈ args ∧ (r, .shared) ∈ l) ∧
      ∀ r, (r, .proxy) ∈ c.shared → ∃ ceil, (r, ceil) ∈ prog.mutexes := by
  obtain ⟨app, base, an, he⟩ := expand_ok h
  have hg := codegen_ok he.codegen
  have hs := he.says
  obtain ⟨-, m2, m3, m4⟩ := mem_contexts hg.contexts
  obtain ⟨sh, lo, hsay, hk⟩ := hs.task _ _ _ _ ht
  have key : ∃ c ∈ prog.contexts, c.task = t ∧ c.priority = q ∧ (c.isAsync = true ↔ k = .software) ∧ sharedHandles app sh = .ok c.shared := by
    rcases hk with ⟨i, h1, h2, h3, h4, h5, h6⟩ | ⟨i, h1, h2, h3, h5, h6⟩ | ⟨i, h1, h2, h3, h5, h6⟩
    · obtain ⟨c, hc, hh⟩ := m2 i h1
      obtain ⟨e1, e2, e3, e4, -⟩ := context_ok hh
      exact ⟨c, hc, by rw [e1, h2], by rw [e2, h3], by simp [e3, h4], by rw [← h5, e4]⟩
    · obtain ⟨c, hc, hh⟩ := m3 _ i h1
      obtain ⟨e1, e2, e3, e4, -⟩ := context_ok hh
      exact ⟨c, hc, e1, by rw [e2, h2], by simp [e3, h3], by rw [← h5, e4]⟩
    · obtain ⟨c, hc, hh⟩ := m4 _ i h1
      obtain ⟨e1, e2, e3, e4, -⟩ := context_ok hh
      exact ⟨c, hc, e1, by rw [e2, h2], by simp [e3, h3], by rw [← h5, e4]⟩
  obtain ⟨c, hc, c1, c2, c3, c4⟩ := key
  have hh := fun r hd => sharedHandles_ok c4 (r := r) (hd := hd)
  have hgm : ∀ r res, get? app.sharedRes r = some res ↔ SharedField raw r res := fun r res =>
    ⟨fun h => (hs.sharedRes r res).mp (get?_some_mem h), fun h => get?_of_mem hs.nodupS ((hs.sharedRes r res).mpr h)⟩
  have hhas : ∀ r a, (r, a) ∈ sh → ∃ res, get? app.sharedRes r = some res := by
    intro r a hra
    obtain ⟨b, hb⟩ := (mapM_ok c4).2 _ hra
    split at hb
    · cases hb
    · exact ⟨_, by assumption⟩
  have hprox : ∀ r, (r, .proxy) ∈ c.shared ↔ (∃ l, .shared l ∈ args ∧ (r, .exclusive) ∈ l) ∧ ∃ res, SharedField raw r res ∧ res.lockFree = false := by
    intro r
    rw [hh, ← hsay.shared]
    constructor
    · rintro ⟨a, res, hra, hres, e⟩
      unfold handleOf at e
      cases hl : res.lockFree
      · rw [hl] at e
        cases a
        · exact ⟨hra, res, (hgm _ _).mp hres, hl⟩
        · simp at e
      · rw [hl] at e; simp at e; split at e <;> cases e
    · rintro ⟨hra, res, hres, hl⟩
      exact ⟨_, res, hra, (hgm _ _).mpr hres, by simp [handleOf, hl]⟩
  refine ⟨c, hc, c1, c2, c3, hprox, ?_, ?_, ?_⟩
  · intro r
    rw [hh, ← hsay.shared]
    constructor
    · rintro ⟨a, res, hra, hres, e⟩
      unfold handleOf at e
      cases hl : res.lockFree
      · rw [hl] at e; simp at e; split at e <;> cases e
      · rw [hl] at e
        cases a
        · exact ⟨hra, res, (hgm _ _).mp hres, hl⟩
        · simp at e
    · rintro ⟨hra, res, hres, hl⟩
      exact ⟨_, res, hra, (hgm _ _).mpr hres, by simp [handleOf, hl]⟩
  · intro r
    rw [hh, ← hsay.shared]
    constructor
    · rintro ⟨a, res, hra, hres, e⟩
      unfold handleOf at e
      cases a
      · split at e <;> simp at e
      · exact hra
    · intro hra
      obtain ⟨res, hres⟩ := hhas _ _ hra
      exact ⟨_, res, hra, hres, by simp [handleOf]⟩
  · intro r hr
    obtain ⟨-, res, hres, hl⟩ := (hprox r).mp hr
    refine ⟨ceilingOf an.base r, ?_⟩
    rw [hg.mutexes]
    exact List.mem_map.mpr ⟨(r, res), List.mem_filter.mpr ⟨(hs.sharedRes _ _).mpr hres, by simp [hl]⟩, rfl⟩

/-! ## C41: lock-free resources -/

/-- In an accepted application all users of a `lock_free` resource have the same priority and none is a software (async) task. -/
theorem C41_lock_free_single_priority (h : expand tg bits raw = .ok prog) {r : Ident} {res : SharedRes} (hr : SharedField raw r res) (hlf : res.lockFree = true) :
    (∀ t q a t' q' a', UsesShared raw t q r a → UsesShared raw t' q' r a' → q = q') ∧
    ∀ t q a args, TaskIs raw t .software q args → ¬ UsesShared raw t q r a := by
  obtain ⟨app, base, an, he⟩ := expand_ok h
  have hs := he.says
  have hmem := (hs.sharedRes r res).mpr hr
  have hno : ∀ e, e ∉ analyzeErrors app := by rw [he.noErrors]; simp
  constructor
  · intro t q a t' q' a' hu hu'
    apply Classical.byContradiction
    intro hne
    exact hno (.lockFreePrio r) (mem_analyzeErrors.mpr (.inr (.inr (.inl ⟨r, rfl, mem_bad.mpr ⟨⟨res, hmem, hlf⟩, t, q, a, t', q', a', hs.uses.mp hu, hs.uses.mp hu', hne⟩⟩))))
  · intro t q a args ht hu
    obtain ⟨sh, lo, hsay, hk⟩ := hs.task _ _ _ _ ht
    have : ∃ st, (t, st) ∈ app.sw := by
      rcases hk with ⟨i, h1, h2, h3, h4, h5, h6⟩ | ⟨i, h1, h2, h3, h5, h6⟩ | ⟨i, h1, h2, h3, h5, h6⟩
      · cases h4
      · cases h3
      · exact ⟨i, h1⟩
    exact hno (.lockFreeAsync r) (mem_analyzeErrors.mpr (.inl ⟨r, t, q, a, rfl, ⟨res, hmem, hlf⟩, hs.uses.mp hu, has_iff.mpr this⟩))

/-- resource 11 of the example is `lock_free` and used by two hardware tasks of priority 2 -/
example : expand exTarget 4 exRaw = .ok exProg ∧ SharedField exRaw 11 { ty := 111, lockFree := true } ∧ UsesShared exRaw 20 2 11 .exclusive ∧ UsesShared exRaw 21 2 11 .exclusive := by
  refine ⟨exRaw_accepted, ⟨1, _, List.mem_cons_self, by decide⟩, ⟨.hardware 60, [.binds 60, .priority 2, .shared [(10, .exclusive), (11, .exclusive), (12, .shared)]], _,
    .hardware (as := false) (ins := []) (ok := true) (by decide) (by decide) (.inl (by decide)), by simp; rfl, by decide⟩,
    ⟨.hardware 61, [.binds 61, .priority 2, .shared [(11, .exclusive)]], _, .hardware (as := false) (ins := []) (ok := true) (by decide) (by decide) (.inl (by decide)), by simp; rfl, by decide⟩⟩

/-- errors of `expand` which are not plain come from the analysis -/
theorem analysis_error {es : List Err} (h : expand tg bits raw = .error (.errors es)) {e : Err} (he : e ∈ es) (hp : e.plain = false) :
    ∃ app, parse raw = .ok app ∧ check app = .ok () ∧ e ∈ analyzeErrors app := by
  have key : Fails (fun f => ∀ es, f = .errors es → e ∈ es → ∃ app, parse raw = .ok app ∧ check app = .ok () ∧ e ∈ analyzeErrors app) (expand tg bits raw) := by
    have hplain : ∀ f, PlainFail f → ∀ es, f = .errors es → e ∈ es → ∃ app, parse raw = .ok app ∧ check app = .ok () ∧ e ∈ analyzeErrors app := by
      rintro f (rfl | ⟨e', rfl, hp'⟩) es hes hmem
      · cases hes
      · cases hes; simp at hmem; subst hmem; rw [hp] at hp'; cases hp'
    unfold expand
    refine fails_bind ((plain_parse raw).mono hplain) fun app ha => fails_bind ((plain_check app).mono hplain) fun ⟨⟩ hc => fails_bind ?_ fun base _ =>
      fails_bind ((plain_archCheck tg app).mono hplain) fun ⟨⟩ harch => fails_bind ?_ fun an han => fails_bind ?_ fun p _ => ?_
    · rcases analyze_cases hc with ⟨-, he'⟩ | ⟨-, an, he'⟩
      · rw [he']; exact fails_error fun es hes hmem => by cases hes; exact ⟨app, ha, hc, hmem⟩
      · rw [he']; exact fails_ok _
    · unfold fullAnalyze
      simp only
      refine fails_ite (fun _ => fails_error fun _ h => by cases h) fun _ => fails_bind ?_ fun _ _ => ?_
      · intro f hf es hes
        subst hes
        exfalso
        have : ∀ (ps : List Nat) (ds : List Ident), Fails (fun f => f = .bug) (popAll ps ds) := by
          intro ps
          induction ps with
          | nil => intro ds; exact fails_ok _
          | cons p ps ih =>
            intro ds
            unfold popAll
            split
            · exact fails_error rfl
            · exact fails_bind (ih _) fun _ _ => fails_pure _
        exact absurd (this _ _ _ hf) (by simp)
      · split
        · exact fails_pure _
        · exact fails_error fun _ h => by cases h
        · exact fails_pure _
    · have hv : ∀ prio, Fails (fun f => ∀ es, f = .errors es → e ∈ es → ∃ app, parse raw = .ok app ∧ check app = .ok () ∧ e ∈ analyzeErrors app) (vectorFor an prio) := by
        intro prio; unfold vectorFor
        refine fails_ite (fun _ => ?_) fun _ => fails_ok _
        split
        · exact fails_error fun _ h => by cases h
        · exact fails_ok _
      obtain ⟨cs, hcs⟩ := contexts_total hc
      unfold codegen
      rw [hcs]
      exact fails_bind (fails_ok _) fun _ _ => fails_bind (fails_mapM fun _ _ => fails_bind (hv _) fun _ _ => fails_pure _) fun _ _ =>
        fails_bind (fails_mapM fun _ _ => fails_bind (hv _) fun _ _ => fails_pure _) fun _ _ => fails_pure _
    · exact fails_ite (fun _ => fails_pure _) fun _ => plain_err (e := .prioRange) rfl |>.mono hplain
  exact key _ h es rfl he

/-- An application is refused on account of a lock-free resource only if that resource is really used at two priorities, or by an async task. -/
theorem C41_lock_free_not_refused {es : List Err} (h : expand tg bits raw = .error (.errors es)) {r : Ident} :
    (.lockFreePrio r ∈ es ∨ .lockFreeStruct r ∈ es →
      ∃ res t q a t' q' a', SharedField raw r res ∧ res.lockFree = true ∧ UsesShared raw t q r a ∧ UsesShared raw t' q' r a' ∧ q ≠ q') ∧
    (.lockFreeAsync r ∈ es → ∃ res t q a args, SharedField raw r res ∧ res.lockFree = true ∧ TaskIs raw t .software q args ∧ UsesShared raw t q r a) := by
  constructor
  · intro hm
    have : ∃ app, parse raw = .ok app ∧ r ∈ (lfCheck app).bad := by
      rcases hm with hm | hm <;> obtain ⟨app, ha, hc, he⟩ := analysis_error h hm rfl <;> refine ⟨app, ha, ?_⟩ <;> rcases mem_analyzeErrors.mp he with
        ⟨r', t, p, a, e, -⟩ | ⟨r', e, h'⟩ | ⟨r', e, h'⟩ | ⟨r', e, -⟩ | ⟨t, e, -⟩ <;> cases e <;> exact h'
    obtain ⟨app, ha, hb⟩ := this
    have hs := says_of_parse ha
    obtain ⟨⟨res, h1, h2⟩, t, q, a, t', q', a', h3, h4, h5⟩ := mem_bad.mp hb
    exact ⟨res, t, q, a, t', q', a', (hs.sharedRes _ _).mp h1, h2, hs.uses.mpr h3, hs.uses.mpr h4, h5⟩
  · intro hm
    obtain ⟨app, ha, hc, he⟩ := analysis_error h hm rfl
    have hs := says_of_parse ha
    rcases mem_analyzeErrors.mp he with ⟨r', t, p, a, e, ⟨res, h1, h2⟩, h3, h4⟩ | ⟨r', e, h'⟩ | ⟨r', e, h'⟩ | ⟨r', e, -⟩ | ⟨t, e, -⟩ <;> cases e
    obtain ⟨st, hst⟩ := has_iff.mp h4
    obtain ⟨args, hargs, -⟩ := hs.sw _ _ hst
    have hp : p = st.priority := by
      rcases h3 with ⟨i, a1, rfl, -⟩ | ⟨h', a1, -⟩ | ⟨h', a1, rfl, -⟩
      · exact absurd hst (hs.idleSw i st a1)
      · exact absurd hst (hs.hwSw _ _ _ a1)
      · have e1 := get?_of_mem hs.nodupSw a1
        have e2 := get?_of_mem hs.nodupSw hst
        rw [e1] at e2; cases e2; rfl
    subst hp
    exact ⟨res, t, _, a, args, (hs.sharedRes _ _).mp h1, h2, hargs, hs.uses.mpr h3⟩

/-- both refusals occur -/
example : ∃ es, expand exTarget 4 { dispatchers := [50], items := [.sharedStruct 1 [(10, { ty := 110, lockFree := true })], .localStruct 2 [], .init 3 [] true 1 2,
      .task 20 [.binds 60, .priority 2, .shared [(10, .exclusive)]] false [] true, .task 22 [.priority 1, .shared [(10, .exclusive)]] true [] true] } = .error (.errors es) ∧
    .lockFreePrio 10 ∈ es ∧ .lockFreeAsync 10 ∈ es :=
  ⟨[.lockFreeAsync 10, .lockFreeStruct 10, .lockFreePrio 10, .lockFreePrio 10, .lockFreePrio 10, .lockFreePrio 10], by decide +kernel, by decide, by decide⟩

/-! ## C42: local resources -/

/-- In an accepted application a field of the `#[local]` struct is used by at most one task, and no task and not `init` declares a task-local resource of the same name. -/
theorem C42_local_exclusive (h : expand tg bits raw = .ok prog) {r : Ident} {ty : Ty} (hr : LocalField raw r ty) :
    (∀ t q t' q', UsesLocal raw t q r → UsesLocal raw t' q' r → t = t') ∧ ∀ t, ¬ DeclaresLocal raw t r := by
  obtain ⟨app, base, an, he⟩ := expand_ok h
  have hs := he.says
  have hmem := (hs.localRes r ty).mpr hr
  have hno : ∀ e, e ∉ analyzeErrors app := by rw [he.noErrors]; simp
  have hnb : r ∉ (lrCheck app).bad := fun hb => hno (.localShared r) (mem_analyzeErrors.mpr (.inr (.inr (.inr (.inl ⟨r, rfl, hb⟩)))))
  obtain ⟨g1, g2⟩ := (lr_inv app).good r hnb
  constructor
  · intro t q t' q' hu hu'
    exact g1 t t' (mem_lrUses.mpr ⟨⟨ty, hmem⟩, .inr ⟨q, hs.usesLocal.mp hu⟩⟩) (mem_lrUses.mpr ⟨⟨ty, hmem⟩, .inr ⟨q', hs.usesLocal.mp hu'⟩⟩)
  · rintro t ⟨args, l, ty', ht | ⟨ok, s, u, ht⟩, hl, hm⟩
    · obtain ⟨k, q, ht⟩ := ht
      exact g2 t ty' (mem_lrUses.mpr ⟨⟨ty, hmem⟩, .inr ⟨q, hs.usesLocal.mp ⟨k, args, l, ht, hl, hm⟩⟩⟩)
    · have e := hs.initOnly _ _ _ _ _ ht
      subst e
      exact g2 _ ty' (mem_lrUses.mpr ⟨⟨ty, hmem⟩, .inl ⟨rfl, (hs.initLocals _ _).mpr ⟨args, ok, s, u, l, ht, hl, hm⟩⟩⟩)

/-- At run time: two different tasks never get a reference to the same `#[local]` field in their contexts. -/
theorem C42_contexts_disjoint (h : expand tg bits raw = .ok prog) {c c' : Context} (hc : c ∈ prog.contexts) (hc' : c' ∈ prog.contexts) {r : Ident}
    (hr : (r, true) ∈ c.locals) (hr' : (r, true) ∈ c'.locals) : c.task = c'.task := by
  obtain ⟨app, base, an, he⟩ := expand_ok h
  have hs := he.says
  have hg := codegen_ok he.codegen
  obtain ⟨m1, -⟩ := mem_contexts hg.contexts
  have key : ∀ c ∈ prog.contexts, (r, true) ∈ c.locals → ∃ q, AppLocal app c.task q r .external := by
    intro c hc hr
    rcases m1 c hc with ⟨i, hi, hh⟩ | ⟨n, t, hi, hh⟩ | ⟨n, t, hi, hh⟩ <;> obtain ⟨e1, e2, e3, e4, e5⟩ := context_ok hh <;>
      obtain ⟨k, hk, hb⟩ := (localHandles_ok e5).mp hr <;> have hk' := hb.mp rfl <;> subst hk'
    · exact ⟨0, .inl ⟨i, hi, e1, rfl, hk⟩⟩
    · exact ⟨_, .inr (.inl ⟨t, e1 ▸ hi, rfl, hk⟩)⟩
    · exact ⟨_, .inr (.inr ⟨t, e1 ▸ hi, rfl, hk⟩)⟩
  obtain ⟨q, hq⟩ := key c hc hr
  obtain ⟨q', hq'⟩ := key c' hc' hr'
  have hloc : has app.localRes r = true := (check_ok he.check).2.1 _ (mem_localAccesses.mpr (.inr ⟨_, _, hq⟩))
  obtain ⟨ty, hty⟩ := has_iff.mp hloc
  exact (C42_local_exclusive h ((hs.localRes _ _).mp hty)).1 _ _ _ _ (hs.usesLocal.mpr hq) (hs.usesLocal.mpr hq')

example : LocalField exRaw 13 113 ∧ UsesLocal exRaw 22 1 13 :=
  ⟨⟨2, _, List.mem_cons_of_mem _ List.mem_cons_self, by decide⟩, .software, [.priority 1, .shared [(10, .exclusive)], .locals [(13, .external)]], _,
    .software (as := true) (ins := [40]) (ok := true) (by decide) (by simp) (.inl (by decide)), by simp; rfl, by decide⟩

/-- The refusal is justified: it names a `#[local]` field that two tasks use or that some task or `init` declares again. -/
theorem C42_local_not_refused {es : List Err} (h : expand tg bits raw = .error (.errors es)) {r : Ident} (hm : .localShared r ∈ es) :
    (∃ t q t' q', t ≠ t' ∧ UsesLocal raw t q r ∧ UsesLocal raw t' q' r) ∨ ∃ t, DeclaresLocal raw t r := by
  obtain ⟨app, ha, hc, he⟩ := analysis_error h hm rfl
  have hs := says_of_parse ha
  rcases mem_analyzeErrors.mp he with ⟨r', t, p, a, e, -⟩ | ⟨r', e, h'⟩ | ⟨r', e, h'⟩ | ⟨r', e, hb⟩ | ⟨t, e, -⟩ <;> cases e
  rcases (lr_inv app).bad (lrUses_nodup hs) r hb with ⟨t, ty, hd⟩ | ⟨t, t', hne, h1, h2⟩
  · right
    refine ⟨t, ?_⟩
    rcases (mem_lrUses.mp hd).2 with ⟨rfl, hi⟩ | ⟨q, hq⟩
    · obtain ⟨args, ok, s, u, l, h1, h2, h3⟩ := (hs.initLocals _ _).mp hi
      exact ⟨args, l, ty, .inr ⟨ok, s, u, h1⟩, h2, h3⟩
    · obtain ⟨k, args, l, h1, h2, h3⟩ := hs.usesLocal.mpr hq
      exact ⟨args, l, ty, .inl ⟨k, q, h1⟩, h2, h3⟩
  · left
    have : ∀ t, (r, t, r, TaskLocal.external) ∈ lrUses app → ∃ q, UsesLocal raw t q r := by
      intro t hm
      rcases (mem_lrUses.mp hm).2 with ⟨rfl, hi⟩ | ⟨q, hq⟩
      · exact absurd hi (hs.initDecl r)
      · exact ⟨q, hs.usesLocal.mpr hq⟩
    obtain ⟨q, hq⟩ := this t h1
    obtain ⟨q', hq'⟩ := this t' h2
    exact ⟨t, q, t', q', hne, hq, hq'⟩

/-! ## C43: Send and Sync -/

/-- Shared resources used above priority 0 are checked for `Send`. Missing for the full claim: shared resources whose name is also that of a `#[local]` resource in use, see `C43_send_violated`. -/
theorem C43_shared_send_partial (h : expand tg bits raw = .ok prog) {r : Ident} {res : SharedRes} (hr : SharedField raw r res) {t : Ident} {q : Nat} {a : Access}
    (hu : UsesShared raw t q r a) (hq : 0 < q) (hcol : ∀ t q, ¬ UsesLocal raw t q r) : res.ty ∈ prog.sendAsserts := by
  obtain ⟨app, base, an, he⟩ := expand_ok h
  have hg := codegen_ok he.codegen
  have hs := he.says
  obtain ⟨s, own, hown, hlo, -, -, ho, -, hsend⟩ := analyze_ok he.analyze
  rw [hg.send, he.anBase, hsend]
  refine List.mem_append_left _ (List.mem_append_left _ (List.mem_map.mpr ⟨(r, res), List.mem_filter.mpr ⟨(hs.sharedRes _ _).mpr hr, ?_⟩, rfl⟩))
  have hget : get? own r = get? s.ownerships r := by
    rw [hlo]
    rcases ownLocal_fold (l := allLocals app) (o := s.ownerships) (r := r) with ⟨-, h2⟩ | ⟨q, h1, -⟩
    · exact h2
    · obtain ⟨t, ht⟩ := (mem_allLocals hs.initDecl).mp h1
      exact absurd (hs.usesLocal.mpr ht) (hcol t q)
  have hm := mem_sharedAccesses.mpr ⟨t, hs.uses.mp hu⟩
  unfold needsSend
  simp only [hget]
  cases hc : get? s.ownerships r with
  | none => exact absurd hm (hown.none r hc _ _)
  | some o => have := hown.max r o hc _ _ hm; simp; omega

/-- `#[local]` resources used above priority 0 (they are moved there from `init`) are checked for `Send`. -/
theorem C43_local_send (h : expand tg bits raw = .ok prog) {r : Ident} {ty : Ty} (hr : LocalField raw r ty) {t : Ident} {q : Nat}
    (hu : UsesLocal raw t q r) (hq : 0 < q) : ty ∈ prog.sendAsserts := by
  obtain ⟨app, base, an, he⟩ := expand_ok h
  have hg := codegen_ok he.codegen
  have hs := he.says
  obtain ⟨s, own, hown, hlo, -, -, ho, -, hsend⟩ := analyze_ok he.analyze
  rw [hg.send, he.anBase, hsend]
  refine List.mem_append_left _ (List.mem_append_right _ (List.mem_map.mpr ⟨(r, ty), List.mem_filter.mpr ⟨(hs.localRes _ _).mpr hr, ?_⟩, rfl⟩))
  have hex := (C42_local_exclusive h hr).1
  rcases ownLocal_fold (l := allLocals app) (o := s.ownerships) (r := r) with ⟨h1, -⟩ | ⟨q', h1, h2⟩
  · exact absurd ((mem_allLocals hs.initDecl).mpr ⟨t, hs.usesLocal.mp hu⟩) (h1 q)
  · obtain ⟨t', ht'⟩ := (mem_allLocals hs.initDecl).mp h1
    have e := hex _ _ _ _ hu (hs.usesLocal.mpr ht')
    subst e
    have hqq : q = q' := by
      rcases hs.usesLocal.mp hu with ⟨i, a1, a2, rfl, -⟩ | ⟨i, a1, a2, -⟩ | ⟨i, a1, a2, -⟩ <;> rcases ht' with ⟨j, b1, b2, rfl, -⟩ | ⟨j, b1, b2, -⟩ | ⟨j, b1, b2, -⟩
      · rfl
      · exact absurd (a2 ▸ b1) (hs.idleHw i j a1)
      · exact absurd (a2 ▸ b1) (hs.idleSw i j a1)
      · exact absurd (b2 ▸ a1) (hs.idleHw j i b1)
      · have e1 := get?_of_mem hs.nodupHw a1
        have e2 := get?_of_mem hs.nodupHw b1
        rw [e1] at e2; cases e2; rw [a2, b2]
      · exact absurd b1 (hs.hwSw _ _ _ a1)
      · exact absurd (b2 ▸ a1) (hs.idleSw j i b1)
      · exact absurd a1 (hs.hwSw _ _ _ b1)
      · have e1 := get?_of_mem hs.nodupSw a1
        have e2 := get?_of_mem hs.nodupSw b1
        rw [e1] at e2; cases e2; rw [a2, b2]
    unfold needsSend
    simp only [hlo, h2]
    rw [← hqq, level_owned]; simp; intro e; rw [e] at hq; exact absurd hq (Nat.lt_irrefl 0)

/-- The inputs of software tasks that can be spawned from anywhere are checked for `Send`. -/
theorem C43_inputs_send (h : expand tg bits raw = .ok prog) {t : Ident} {ins : List Ty} (ht : IsLocalTask raw t false ins) {ty : Ty} (hty : ty ∈ ins) : ty ∈ prog.sendAsserts := by
  obtain ⟨app, base, an, he⟩ := expand_ok h
  have hg := codegen_ok he.codegen
  have hs := he.says
  obtain ⟨s, own, hown, hlo, -, -, ho, -, hsend⟩ := analyze_ok he.analyze
  rw [hg.send, he.anBase, hsend]
  obtain ⟨st, h1, h2, rfl⟩ := (hs.localTask _ _ _).mp ht
  exact List.mem_append_right _ (List.mem_flatMap.mpr ⟨_, List.mem_filter.mpr ⟨h1, by simp [h2]⟩, hty⟩)

/-- A resource shared by reference between tasks of different priorities is checked for `Sync`. -/
theorem C43_sync (h : expand tg bits raw = .ok prog) {r : Ident} {res : SharedRes} (hr : SharedField raw r res) {t t' : Ident} {q q' : Nat}
    (hu : UsesShared raw t q r .shared) (hu' : UsesShared raw t' q' r .shared) (hne : q ≠ q') : res.ty ∈ prog.syncAsserts := by
  obtain ⟨app, base, an, he⟩ := expand_ok h
  have hg := codegen_ok he.codegen
  have hs := he.says
  obtain ⟨s, own, hown, hlo, -, -, ho, hsync, -⟩ := analyze_ok he.analyze
  rw [hg.sync, he.anBase, hsync]
  have m1 := mem_sharedAccesses.mpr ⟨t, hs.uses.mp hu⟩
  have m2 := mem_sharedAccesses.mpr ⟨t', hs.uses.mp hu'⟩
  have hmix := (check_ok he.check).2.2.1
  cases hc : get? s.ownerships r with
  | none => exact absurd m1 (hown.none r hc _ _)
  | some o =>
    by_cases hcont : ∀ c, o ≠ .contended c
    · exact absurd ((hown.single r o hc hcont _ _ m1).trans (hown.single r o hc hcont _ _ m2).symm) hne
    · obtain ⟨c, rfl⟩ := exists_contended hcont
      exact hown.sync r c res hc (fun p a hm => hmix _ hm _ m1 rfl) (get?_of_mem hs.nodupS ((hs.sharedRes _ _).mpr hr))

/-- `Sync` is not demanded without reason. -/
theorem C43_sync_only (h : expand tg bits raw = .ok prog) {ty : Ty} (hty : ty ∈ prog.syncAsserts) :
    ∃ r res t q t' q' a, SharedField raw r res ∧ res.ty = ty ∧ UsesShared raw t q r .shared ∧ UsesShared raw t' q' r a ∧ q ≠ q' := by
  obtain ⟨app, base, an, he⟩ := expand_ok h
  have hg := codegen_ok he.codegen
  have hs := he.says
  obtain ⟨s, own, hown, hlo, -, -, ho, hsync, -⟩ := analyze_ok he.analyze
  rw [hg.sync, he.anBase, hsync] at hty
  obtain ⟨r, res, p1, a1, p2, h1, h2, h3, h4, h5⟩ := hown.syncOnly ty hty
  obtain ⟨t, ht⟩ := mem_sharedAccesses.mp h3
  obtain ⟨t', ht'⟩ := mem_sharedAccesses.mp h4
  exact ⟨r, res, t', p2, t, p1, a1, (hs.sharedRes _ _).mp (get?_some_mem h1), h2, hs.uses.mpr ht', hs.uses.mpr ht, fun e => h5 e.symm⟩

/-- `Send` is not demanded without reason: of the type of a resource only if its name is used above priority 0, of an input only if the task can be spawned from anywhere. -/
theorem C43_send_only (h : expand tg bits raw = .ok prog) {ty : Ty} (hty : ty ∈ prog.sendAsserts) :
    (∃ r t q, ((∃ res, SharedField raw r res ∧ res.ty = ty) ∨ LocalField raw r ty) ∧ ((∃ a, UsesShared raw t q r a) ∨ UsesLocal raw t q r) ∧ 0 < q) ∨ ∃ t ins, IsLocalTask raw t false ins ∧ ty ∈ ins := by
  obtain ⟨app, base, an, he⟩ := expand_ok h
  have hg := codegen_ok he.codegen
  have hs := he.says
  obtain ⟨s, own, hown, hlo, -, -, ho, -, hsend⟩ := analyze_ok he.analyze
  rw [hg.send, he.anBase, hsend] at hty
  have key : ∀ r, needsSend own r = true → ∃ t q, ((∃ a, UsesShared raw t q r a) ∨ UsesLocal raw t q r) ∧ 0 < q := by
    intro r hn
    unfold needsSend at hn
    rw [hlo] at hn
    rcases ownLocal_fold (l := allLocals app) (o := s.ownerships) (r := r) with ⟨-, h2⟩ | ⟨q, h1, h2⟩
    · rw [h2] at hn
      cases hc : get? s.ownerships r with
      | none => rw [hc] at hn; cases hn
      | some o =>
        rw [hc] at hn
        obtain ⟨a, ha⟩ := hown.att r o hc
        obtain ⟨t, ht⟩ := mem_sharedAccesses.mp ha
        exact ⟨t, _, .inl ⟨a, hs.uses.mpr ht⟩, by simp at hn; omega⟩
    · rw [h2] at hn
      obtain ⟨t, ht⟩ := (mem_allLocals hs.initDecl).mp h1
      refine ⟨t, q, .inr (hs.usesLocal.mpr ht), ?_⟩
      simp only [level_owned] at hn
      exact Nat.pos_of_ne_zero (of_decide_eq_true hn)
  rcases List.mem_append.mp hty with hty | hty
  · left
    rcases List.mem_append.mp hty with hty | hty
    · obtain ⟨⟨r, res⟩, hm, rfl⟩ := List.mem_map.mp hty
      obtain ⟨hm, hn⟩ := List.mem_filter.mp hm
      obtain ⟨t, q, hu, hq⟩ := key r hn
      exact ⟨r, t, q, .inl ⟨res, (hs.sharedRes _ _).mp hm, rfl⟩, hu, hq⟩
    · obtain ⟨⟨r, ty⟩, hm, rfl⟩ := List.mem_map.mp hty
      obtain ⟨hm, hn⟩ := List.mem_filter.mp hm
      obtain ⟨t, q, hu, hq⟩ := key r hn
      exact ⟨r, t, q, .inr ((hs.localRes _ _).mp hm), hu, hq⟩
  · right
    obtain ⟨⟨t, st⟩, hm, hin⟩ := List.mem_flatMap.mp hty
    obtain ⟨hm, hl⟩ := List.mem_filter.mp hm
    exact ⟨t, st.inputs, (hs.localTask _ _ _).mpr ⟨st, hm, by simpa using hl, rfl⟩, hin⟩

/-- the example: all four situations occur -/
example : UsesShared exRaw 20 2 12 .shared ∧ UsesShared exRaw 23 3 12 .shared ∧ IsLocalTask exRaw 22 false [40] ∧ IsLocalTask exRaw 24 true [41] ∧
    exProg.syncAsserts = [112] ∧ exProg.sendAsserts = [110, 111, 112, 113, 40] := by
  refine ⟨⟨.hardware 60, [.binds 60, .priority 2, .shared [(10, .exclusive), (11, .exclusive), (12, .shared)]], _, .hardware (as := false) (ins := [])
    (ok := true) (by decide) (by decide) (.inl (by decide)), by simp; rfl, by decide⟩, ⟨.software, [.priority 3, .shared [(12, .shared)]], _,
    .software (as := true) (ins := []) (ok := true) (by decide) (by simp) (.inl (by decide)), by simp; rfl, by decide⟩,
    ⟨[.priority 1, .shared [(10, .exclusive)], .locals [(13, .external)]], true, true, by decide, by simp, .inr ⟨rfl, by simp⟩⟩,
    ⟨[.priority 3, .localTask true], true, true, by decide, by simp, .inl (by decide)⟩, rfl, rfl⟩

/-- The claim is false: in `collisionRaw` the type 110 of the shared resource used at priorities 1 and 2 is never checked for `Send`. -/
theorem C43_send_violated : ∃ prog, expand exTarget 4 collisionRaw = .ok prog ∧ prog.sendAsserts = [] ∧ SharedField collisionRaw 10 { ty := 110, lockFree := false } ∧
    UsesShared collisionRaw 21 2 10 .exclusive := by
  refine ⟨(expand exTarget 4 collisionRaw).toOption.get (by decide +kernel), by decide +kernel, by decide +kernel, ⟨1, _, List.mem_cons_self, by decide⟩, ?_⟩
  exact ⟨.hardware 61, [.binds 61, .priority 2, .shared [(10, .exclusive)]], _, .hardware (as := false) (ins := []) (ok := true) (by decide) (by decide) (.inl (by decide)), by simp; rfl, by decide⟩

theorem hw_of_task {raw : Raw} {app : App} (hs : Says raw app) {t v : Ident} {q : Nat} {args : List TaskArg} (h : TaskIs raw t (.hardware v) q args) : ∃ h, (t, h) ∈ app.hw ∧ h.binds = v ∧ h.priority = q := by
  obtain ⟨sh, lo, -, hk⟩ := hs.task _ _ _ _ h
  rcases hk with ⟨i, h1, h2, h3, h4, h5, h6⟩ | ⟨i, h1, h2, h3, h5, h6⟩ | ⟨i, h1, h2, h3, h5, h6⟩
  · cases h4
  · cases h3; exact ⟨i, h1, rfl, h2.symm⟩
  · cases h3

/-! ## C55: the limit for async drivers and monotonics -/

/-- The exported limit for the priority of async drivers (and the timer interrupts of monotonics) is one below the lowest priority of a hardware task; there is none if there are no hardware tasks. -/
theorem C55_async_limit (h : expand tg bits raw = .ok prog) : (prog.asyncMax = none → ∀ t b q args, ¬ TaskIs raw t (.hardware b) q args) ∧
    ∀ v, prog.asyncMax = some v → (∀ t b q args, TaskIs raw t (.hardware b) q args → v < q) ∧ ∃ t b args, TaskIs raw t (.hardware b) (v + 1) args := by
  obtain ⟨app, base, an, he⟩ := expand_ok h
  have hs := he.says
  rw [(codegen_ok he.codegen).asyncMax, maxAsync_ok he.full]
  have hmem : ∀ t b q args, TaskIs raw t (.hardware b) q args → q ∈ app.hw.map fun nt => nt.2.priority := by
    intro t b q args ht
    obtain ⟨x, hx, -, hq⟩ := hw_of_task hs ht
    exact List.mem_map.mpr ⟨_, hx, hq⟩
  constructor
  · intro hn t b q args ht
    rw [Option.map_eq_none_iff, List.min?_eq_none_iff] at hn
    have := hmem _ _ _ _ ht
    rw [hn] at this; cases this
  · intro v hv
    obtain ⟨m, hm, hv⟩ := Option.map_eq_some_iff.mp hv
    obtain ⟨ha, hb⟩ := List.min?_eq_some_iff.mp hm
    obtain ⟨⟨n, x⟩, hx, rfl⟩ := List.mem_map.mp ha
    have h1 := (hs.hwPrio n x hx).1
    simp only at hv
    refine ⟨fun t b q args ht => ?_, ?_⟩
    · have := hb _ (hmem _ _ _ _ ht)
      simp only at this
      omega
    · obtain ⟨args, ht, -⟩ := hs.hw n x hx
      exact ⟨n, _, args, by rw [← hv, Nat.sub_add_cancel h1]; exact ht⟩

example : exProg.asyncMax = some 1 ∧ TaskIs exRaw 20 (.hardware 60) 2 [.binds 60, .priority 2, .shared [(10, .exclusive), (11, .exclusive), (12, .shared)]] :=
  ⟨rfl, .hardware (as := false) (ins := []) (ok := true) (by decide) (by decide) (.inl (by decide))⟩

/-! ## C44: dispatchers -/

theorem sw_of_task {app : App} (hs : Says raw app) {t : Ident} {q : Nat} {args : List TaskArg} (ht : TaskIs raw t .software q args) : ∃ st, (t, st) ∈ app.sw ∧ q = st.priority := by
  obtain ⟨sh, lo, hsay, hk⟩ := hs.task _ _ _ _ ht
  rcases hk with ⟨i, h1, h2, h3, h4, h5, h6⟩ | ⟨i, h1, h2, h3, h5, h6⟩ | ⟨i, h1, h2, h3, h5, h6⟩
  · cases h4
  · cases h3
  · exact ⟨i, h1, h2⟩

/-- Every non-zero priority of a software task has exactly one dispatcher, an interrupt from the `dispatchers` list; there are no other dispatchers, and different priorities have
different interrupts. Priority 0 is served by the thread that otherwise runs idle. -/
theorem C44_one_dispatcher_per_priority (h : expand tg bits raw = .ok prog) :
    (∀ q, 0 < q → ((∃ t args, TaskIs raw t .software q args) ↔ ∃ v ts, (some v, q, ts) ∈ prog.dispatchers)) ∧
    (∀ o q ts o' ts', (o, q, ts) ∈ prog.dispatchers → (o', q, ts') ∈ prog.dispatchers → o = o' ∧ ts = ts') ∧
    (∀ v q ts q' ts', (some v, q, ts) ∈ prog.dispatchers → (some v, q', ts') ∈ prog.dispatchers → q = q') ∧
    (∀ v q ts, (some v, q, ts) ∈ prog.dispatchers → v ∈ raw.dispatchers ∧ 0 < q) ∧
    (∀ q ts, (none, q, ts) ∈ prog.dispatchers → q = 0) := by
  obtain ⟨app, base, an, he⟩ := expand_ok h
  have hg := codegen_ok he.codegen
  have hs := he.says
  have hd := he.disp
  have md := fun o q ts => mem_dispatchers hg (o := o) (prio := q) (ts := ts)
  refine ⟨?_, ?_, ?_, ?_, ?_⟩
  · intro q hq
    constructor
    · rintro ⟨t, args, ht⟩
      obtain ⟨st, h1, h2⟩ := sw_of_task hs ht
      have hex : ∃ nt ∈ app.sw, nt.2.priority = q := ⟨_, h1, h2.symm⟩
      obtain ⟨o, ho⟩ := vectorFor_total hd hex
      rcases vectorFor_ok ho with ⟨h0, -⟩ | ⟨-, v, rfl, -⟩
      · omega
      · exact ⟨v, _, (md _ _ _).mpr ⟨hex, rfl, ho⟩⟩
    · rintro ⟨v, ts, hm⟩
      obtain ⟨⟨nt, h1, h2⟩, -⟩ := (md _ _ _).mp hm
      obtain ⟨args, ha, -⟩ := hs.sw nt.1 nt.2 h1
      exact ⟨nt.1, args, h2 ▸ ha⟩
  · intro o q ts o' ts' hm hm'
    obtain ⟨-, e1, e2⟩ := (md _ _ _).mp hm
    obtain ⟨-, e3, e4⟩ := (md _ _ _).mp hm'
    rw [e2] at e4; cases e4
    exact ⟨rfl, e1.trans e3.symm⟩
  · intro v q ts q' ts' hm hm'
    obtain ⟨-, -, e2⟩ := (md _ _ _).mp hm
    obtain ⟨-, -, e4⟩ := (md _ _ _).mp hm'
    rcases vectorFor_ok e2 with ⟨-, h0⟩ | ⟨-, v1, h0, h1⟩
    · cases h0
    · rcases vectorFor_ok e4 with ⟨-, h0'⟩ | ⟨-, v2, h0', h1'⟩
      · cases h0'
      · cases h0; cases h0'
        have := pairwise_of_map_nodup hd.nodupV
        apply Classical.byContradiction
        intro hne
        have hinj : ∀ {l : List (Nat × Ident)}, (l.map Prod.snd).Nodup → ∀ a b, (a, v) ∈ l → (b, v) ∈ l → a = b := by
          intro l
          induction l with
          | nil => intro _ a b h; cases h
          | cons x l ih =>
            intro hn a b ha hb
            rw [List.map_cons, List.nodup_cons] at hn
            rcases List.mem_cons.mp ha with rfl | ha'
            · rcases List.mem_cons.mp hb with hb | hb'
              · cases hb; rfl
              · exact absurd (List.mem_map.mpr ⟨_, hb', rfl⟩) hn.1
            · rcases List.mem_cons.mp hb with rfl | hb'
              · exact absurd (List.mem_map.mpr ⟨_, ha', rfl⟩) hn.1
              · exact ih hn.2 a b ha' hb'
        exact hne (hinj hd.nodupV q q' h1 h1')
  · intro v q ts hm
    obtain ⟨-, -, e2⟩ := (md _ _ _).mp hm
    rcases vectorFor_ok e2 with ⟨-, h0⟩ | ⟨hq, v1, h0, h1⟩
    · cases h0
    · cases h0
      exact ⟨hs.dispatchers ▸ hd.sub _ _ h1, hq⟩
  · intro q ts hm
    obtain ⟨-, -, e2⟩ := (md _ _ _).mp hm
    rcases vectorFor_ok e2 with ⟨hq, h0⟩ | ⟨hq, v1, h0, h1⟩
    · exact hq
    · cases h0

/-- Each software task is polled by the dispatcher of its own priority and by no other, and spawning or waking it pends exactly the interrupt of that dispatcher. -/
theorem C44_task_polled_by_own_dispatcher (h : expand tg bits raw = .ok prog) {t : Ident} {q : Nat} {args : List TaskArg} (ht : TaskIs raw t .software q args) :
    ∃ o ts, (o, q, ts) ∈ prog.dispatchers ∧ t ∈ ts ∧ (∀ o', (t, o') ∈ prog.pends ↔ o' = o) ∧
      (∀ o' q' ts', (o', q', ts') ∈ prog.dispatchers → t ∈ ts' → o' = o ∧ q' = q) := by
  obtain ⟨app, base, an, he⟩ := expand_ok h
  have hg := codegen_ok he.codegen
  have hs := he.says
  have hd := he.disp
  have md := fun o q ts => mem_dispatchers hg (o := o) (prio := q) (ts := ts)
  obtain ⟨st, h1, h2⟩ := sw_of_task hs ht
  have hex : ∃ nt ∈ app.sw, nt.2.priority = q := ⟨_, h1, h2.symm⟩
  obtain ⟨o, ho⟩ := vectorFor_total hd hex
  have huniq : ∀ st', (t, st') ∈ app.sw → st' = st := by
    intro st' hst'
    have e1 := get?_of_mem hs.nodupSw h1
    have e2 := get?_of_mem hs.nodupSw hst'
    rw [e1] at e2; cases e2; rfl
  refine ⟨o, channelTasks app q, (md _ _ _).mpr ⟨hex, rfl, ho⟩, mem_channelTasks.mpr ⟨st, h1, h2.symm⟩, ?_, ?_⟩
  · intro o'
    rw [mem_pends hg]
    constructor
    · rintro ⟨st', hst', hv⟩
      rw [huniq _ hst', ← h2, ho] at hv; cases hv; rfl
    · rintro rfl; exact ⟨st, h1, h2 ▸ ho⟩
  · intro o' q' ts' hm htm
    obtain ⟨-, rfl, e2⟩ := (md _ _ _).mp hm
    obtain ⟨st', hst', hp⟩ := mem_channelTasks.mp htm
    rw [huniq _ hst', ← h2] at hp
    subst hp
    rw [ho] at e2; cases e2; exact ⟨rfl, rfl⟩

/-- Hardware tasks are bound to the interrupt and priority they name, no two to the same, and no dispatcher interrupt is also bound to a hardware task. -/
theorem C44_dispatchers_not_hardware (h : expand tg bits raw = .ok prog) :
    (∀ v q t, (v, q, t) ∈ prog.hwHandlers ↔ ∃ args, TaskIs raw t (.hardware v) q args) ∧
    (prog.hwHandlers.map Prod.fst).Nodup ∧
    ∀ v q t q' ts, (v, q, t) ∈ prog.hwHandlers → (some v, q', ts) ∉ prog.dispatchers := by
  obtain ⟨app, base, an, he⟩ := expand_ok h
  have hg := codegen_ok he.codegen
  have hs := he.says
  refine ⟨?_, ?_, ?_⟩
  · intro v q t
    rw [hg.hw]
    simp only [List.mem_map, Prod.mk.injEq]
    constructor
    · rintro ⟨nt, hnt, rfl, rfl, rfl⟩
      obtain ⟨args, ha, -⟩ := hs.hw _ _ hnt
      exact ⟨args, ha⟩
    · rintro ⟨args, ha⟩
      obtain ⟨sh, lo, -, hk⟩ := hs.task _ _ _ _ ha
      rcases hk with ⟨i, h1, h2, h3, h4, -⟩ | ⟨i, h1, h2, h3, -⟩ | ⟨i, h1, h2, h3, -⟩
      · cases h4
      · cases h3; exact ⟨_, h1, rfl, h2.symm, rfl⟩
      · cases h3
  · rw [hg.hw, List.map_map]; exact hs.nodupB
  · intro v q t q' ts hm hm'
    have := ((C44_one_dispatcher_per_priority h).2.2.2.1 v q' ts hm').1
    rw [hg.hw] at hm
    obtain ⟨nt, hnt, e⟩ := List.mem_map.mp hm
    cases e
    exact (check_ok he.check).2.2.2 nt hnt (hs.dispatchers ▸ this)

/-- With fewer dispatchers than non-zero software priorities the application is refused. -/
theorem C44_too_few_refused {ps : List Nat} (hnd : ps.Nodup) (hps : ∀ q ∈ ps, 0 < q ∧ ∃ t args, TaskIs raw t .software q args) (hlt : raw.dispatchers.length < ps.length) :
    ∀ prog, expand tg bits raw ≠ .ok prog := by
  intro prog h
  obtain ⟨app, base, an, he⟩ := expand_ok h
  have hs := he.says
  have hlen := (archCheck_ok he.arch).2.1
  have : ps.length ≤ ((toSet (app.sw.map fun nt => nt.2.priority)).filter (0 < ·)).length := by
    apply length_le_of_subset hnd
    intro q hq
    obtain ⟨h0, t, args, ht⟩ := hps q hq
    obtain ⟨st, h1, h2⟩ := sw_of_task hs ht
    simp only [List.mem_filter, mem_toSet, List.mem_map, decide_eq_true_eq]
    exact ⟨⟨_, h1, h2.symm⟩, h0⟩
  rw [hs.dispatchers] at hlen
  omega

/-- the example has two software priorities and two dispatchers; with one dispatcher fewer it is refused -/
example : TaskIs exRaw 22 .software 1 [.priority 1, .shared [(10, .exclusive)], .locals [(13, .external)]] ∧ TaskIs exRaw 24 .software 3 [.priority 3, .localTask true] ∧
    exProg.dispatchers = [(some 50, 1, [22]), (some 51, 3, [23, 24])] ∧ expand exTarget 4 { exRaw with dispatchers := [50] } = .error (.errors [.notEnough]) :=
  ⟨.software (as := true) (ins := [40]) (ok := true) (by decide) (by simp) (.inl (by decide)), .software (as := true) (ins := [41]) (ok := true) (by decide) (by simp) (.inl (by decide)),
    rfl, by decide +kernel⟩

/-! ## C45: validation of resource lists -/

/-- In an accepted application every resource in a `shared` list is a field of the `#[shared]` struct, every (not declared) resource in a `local` list is a field of the `#[local]`
struct, and no resource is taken both by reference and exclusively. -/
theorem C45_resources_validated (h : expand tg bits raw = .ok prog) :
    (∀ t q r a, UsesShared raw t q r a → ∃ res, SharedField raw r res) ∧ (∀ t q r, UsesLocal raw t q r → ∃ ty, LocalField raw r ty) ∧
    ∀ t q r a t' q' a', UsesShared raw t q r a → UsesShared raw t' q' r a' → a = a' := by
  obtain ⟨app, base, an, he⟩ := expand_ok h
  have hs := he.says
  obtain ⟨c1, c2, c3, -⟩ := check_ok he.check
  refine ⟨?_, ?_, ?_⟩
  · intro t q r a hu
    obtain ⟨res, hres⟩ := has_iff.mp (c1 _ (mem_sharedAccesses.mpr ⟨t, hs.uses.mp hu⟩))
    exact ⟨res, (hs.sharedRes _ _).mp hres⟩
  · intro t q r hu
    obtain ⟨ty, hty⟩ := has_iff.mp (c2 _ (mem_localAccesses.mpr (.inr ⟨t, q, hs.usesLocal.mp hu⟩)))
    exact ⟨ty, (hs.localRes _ _).mp hty⟩
  · intro t q r a t' q' a' hu hu'
    exact c3 _ (mem_sharedAccesses.mpr ⟨t, hs.uses.mp hu⟩) _ (mem_sharedAccesses.mpr ⟨t', hs.uses.mp hu'⟩) rfl

/-- the three kinds of refusal -/
example :
    expand exTarget 4 { dispatchers := [], items := [.sharedStruct 1 [], .localStruct 2 [], .init 3 [] true 1 2, .idle 4 [.shared [(10, .exclusive)]] true] } = .error (.errors [.undeclaredShared 10]) ∧
    expand exTarget 4 { dispatchers := [], items := [.sharedStruct 1 [], .localStruct 2 [], .init 3 [] true 1 2, .idle 4 [.locals [(10, .external)]] true] } = .error (.errors [.undeclaredLocal 10]) ∧
    expand exTarget 4 { dispatchers := [], items := [.sharedStruct 1 [(10, { ty := 110, lockFree := false })], .localStruct 2 [], .init 3 [] true 1 2, .idle 4 [.shared [(10, .exclusive)]] true,
      .task 20 [.binds 60, .shared [(10, .shared)]] false [] true] } = .error (.errors [.mixedAccess 10]) := by
  refine ⟨?_, ?_, ?_⟩ <;> decide +kernel

/-! ## C61: local tasks -/

/-- A software task marked `local_task` has no freely callable `spawn`; the safe way to spawn it exists exactly in the software tasks of the same priority, that is in tasks polled by the
same dispatcher. Every other software task has a freely callable `spawn`. -/
theorem C61_local_tasks_stay_on_executor (h : expand tg bits raw = .ok prog) :
    (∀ t, t ∈ prog.freeSpawn ↔ ∃ ins, IsLocalTask raw t false ins) ∧
    (∀ s t, (s, t) ∈ prog.localSpawn ↔ ∃ q args args' ins, TaskIs raw s .software q args ∧ TaskIs raw t .software q args' ∧ IsLocalTask raw t true ins) ∧
    (∀ s t, (s, t) ∈ prog.localSpawn → ∃ o q ts, (o, q, ts) ∈ prog.dispatchers ∧ s ∈ ts ∧ t ∈ ts) ∧
    ∀ t ins, IsLocalTask raw t true ins → t ∉ prog.freeSpawn := by
  obtain ⟨app, base, an, he⟩ := expand_ok h
  have hg := codegen_ok he.codegen
  have hs := he.says
  have hfree : ∀ t, t ∈ prog.freeSpawn ↔ ∃ st, (t, st) ∈ app.sw ∧ st.localTask = false := by
    intro t; rw [hg.freeSpawn]; simp
  have hloc : ∀ s t, (s, t) ∈ prog.localSpawn ↔ ∃ st st', (s, st) ∈ app.sw ∧ (t, st') ∈ app.sw ∧ st'.localTask = true ∧ st'.priority = st.priority := by
    intro s t
    rw [hg.localSpawn]
    simp only [List.mem_flatMap, List.mem_map, List.mem_filter, Prod.mk.injEq, Bool.and_eq_true, decide_eq_true_eq]
    constructor
    · rintro ⟨nt, h1, mt, ⟨h2, h3, h4⟩, rfl, rfl⟩; exact ⟨_, _, h1, h2, h3, h4⟩
    · rintro ⟨st, st', h1, h2, h3, h4⟩; exact ⟨_, h1, _, ⟨h2, h3, h4⟩, rfl, rfl⟩
  have huniq : ∀ t st st', (t, st) ∈ app.sw → (t, st') ∈ app.sw → st = st' := by
    intro t st st' h1 h2
    have e1 := get?_of_mem hs.nodupSw h1
    have e2 := get?_of_mem hs.nodupSw h2
    rw [e1] at e2; cases e2; rfl
  have hspawn : ∀ s t, (s, t) ∈ prog.localSpawn ↔ ∃ q args args' ins, TaskIs raw s .software q args ∧ TaskIs raw t .software q args' ∧ IsLocalTask raw t true ins := by
    intro s t
    rw [hloc]
    constructor
    · rintro ⟨st, st', h1, h2, h3, h4⟩
      obtain ⟨a1, b1, -⟩ := hs.sw _ _ h1
      obtain ⟨a2, b2, -⟩ := hs.sw _ _ h2
      exact ⟨st.priority, a1, a2, _, b1, h4 ▸ b2, (hs.localTask _ _ _).mpr ⟨st', h2, h3, rfl⟩⟩
    · rintro ⟨q, a1, a2, ins, b1, b2, b3⟩
      obtain ⟨st, h1, h2⟩ := sw_of_task hs b1
      obtain ⟨st', h1', h2'⟩ := sw_of_task hs b2
      obtain ⟨st'', h3, h4, -⟩ := (hs.localTask _ _ _).mp b3
      have := huniq _ _ _ h1' h3
      subst this
      exact ⟨st, st', h1, h1', h4, by omega⟩
  refine ⟨?_, hspawn, ?_, ?_⟩
  · intro t
    rw [hfree]
    constructor
    · rintro ⟨st, h1, h2⟩; exact ⟨st.inputs, (hs.localTask _ _ _).mpr ⟨st, h1, h2, rfl⟩⟩
    · rintro ⟨ins, hi⟩
      obtain ⟨st, h1, h2, -⟩ := (hs.localTask _ _ _).mp hi
      exact ⟨st, h1, h2⟩
  · intro s t hst
    obtain ⟨q, a1, a2, ins, b1, b2, -⟩ := (hspawn s t).mp hst
    obtain ⟨o, ts, h1, h2, -, -⟩ := C44_task_polled_by_own_dispatcher h b1
    obtain ⟨o', ts', h1', h2', -, -⟩ := C44_task_polled_by_own_dispatcher h b2
    obtain ⟨-, e⟩ := (C44_one_dispatcher_per_priority h).2.1 _ _ _ _ _ h1 h1'
    exact ⟨o, q, ts, h1, h2, e ▸ h2'⟩
  · intro t ins hi hf
    obtain ⟨st, h1, h2⟩ := (hfree t).mp hf
    obtain ⟨st', h3, h4, -⟩ := (hs.localTask _ _ _).mp hi
    rw [huniq _ _ _ h1 h3, h4] at h2; cases h2

example : exProg.localSpawn = [(23, 24), (24, 24)] ∧ exProg.freeSpawn = [22, 23] := ⟨rfl, rfl⟩

/-! ## C62: no internal error -/

/-- For no input does the macro run into one of its internal `expect`s, `assert`s or an arithmetic underflow: it yields a program, error messages, or says that a required item is missing. -/
theorem C62_no_internal_panic (tg : Target) (bits : Nat) (raw : Raw) : expand tg bits raw ≠ .error .bug :=
  fun h => expand_notBug tg bits raw _ h rfl

/-- the internal error is observable in the model: the later stages alone do run into it on a tree the earlier stages would refuse -/
example : fullAnalyze { usedShared := [], usedLocal := [], ownerships := [], sendTypes := [], syncTypes := [] }
    { dispatchers := [], init := { name := 3, locals := [], userShared := 1, userLocal := 2 }, idle := none, sharedRes := [], localRes := [], hw := [],
      sw := [(20, { priority := 1, shared := [], locals := [], localTask := false, inputs := [] })] } = .error .bug := by decide +kernel

end Verif.Analysis
