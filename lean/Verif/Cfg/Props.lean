import Verif.Cfg.Source
import Verif.Startup.Props

/-!
# C85: conditional compilation
-/

namespace Verif.Cfg

open Verif.Analysis
open Verif.EndToEnd (Runs handlerPrio appCfg NoCollision)

variable {on : Switch} {tg : Target} {bits : Nat} {raw : Raw} {p p' : Program}

/-! ## Lemmas -/

def itemArgs : Item → List TaskArg
  | .task _ a _ _ _ | .init _ a _ _ _ | .idle _ a _ => a
  | _ => []

theorem taskIs_args (hv : ItemsValid raw) {t : Ident} {k k' : Kind} {q q' : Nat} {args args' : List TaskArg} (h1 : TaskIs raw t k q args) (h2 : TaskIs raw t k' q' args') : args = args' := by
  have hn := hv.names
  rw [functions_eq] at hn
  have key : ∀ {k q args}, TaskIs raw t k q args → ∃ x ∈ raw.items, fnName x = some t ∧ itemArgs x = args := by
    intro k q args h
    cases h with
    | idle h => exact ⟨_, h, rfl, rfl⟩
    | hardware h => exact ⟨_, h, rfl, rfl⟩
    | software h => exact ⟨_, h, rfl, rfl⟩
  obtain ⟨x, hx, nx, rfl⟩ := key h1
  obtain ⟨y, hy, ny, rfl⟩ := key h2
  rw [same_item hn hx hy nx ny]

theorem itemsValid (h : expand tg bits raw = .ok p) : ItemsValid raw := ((C84_accepted_iff _ _ _).mp ⟨p, h⟩).items

/-- what a context contains -/
theorem context_says (h : expand tg bits raw = .ok p) {c : Context} (hc : c ∈ p.contexts) : ∃ k args, TaskIs raw c.task k c.priority args ∧ (c.isAsync = true ↔ k = .software) ∧
    (∀ r hd, (r, hd) ∈ c.shared ↔ ∃ l a res, .shared l ∈ args ∧ (r, a) ∈ l ∧ SharedField raw r res ∧ hd = handleOf res a) ∧
    ∀ r b, (r, b) ∈ c.locals ↔ ∃ l k, .locals l ∈ args ∧ (r, k) ∈ l ∧ (b = true ↔ k = .external) := by
  obtain ⟨app, base, an, he⟩ := expand_ok h
  have hg := codegen_ok he.codegen
  have hs := he.says
  have key : ∀ {n q as sh lo} {args : List TaskArg}, context app n q as sh lo = .ok c → ArgsSay args sh lo →
      (∀ r hd, (r, hd) ∈ c.shared ↔ ∃ l a res, .shared l ∈ args ∧ (r, a) ∈ l ∧ SharedField raw r res ∧ hd = handleOf res a) ∧
      ∀ r b, (r, b) ∈ c.locals ↔ ∃ l k, .locals l ∈ args ∧ (r, k) ∈ l ∧ (b = true ↔ k = .external) := by
    intro n q as sh lo args hx ha
    obtain ⟨-, -, -, hh, hl⟩ := context_ok hx
    constructor
    · intro r hd
      rw [sharedHandles_ok hh]
      constructor
      · rintro ⟨a, res, h1, h2, rfl⟩
        obtain ⟨l, hl, hm⟩ := (ha.shared _).mp h1
        exact ⟨l, a, res, hl, hm, (hs.sharedRes _ _).mp (get?_some_mem h2), rfl⟩
      · rintro ⟨l, a, res, hl, hm, hf, rfl⟩
        exact ⟨a, res, (ha.shared _).mpr ⟨l, hl, hm⟩, get?_of_mem hs.nodupS ((hs.sharedRes _ _).mpr hf), rfl⟩
    · intro r b
      rw [localHandles_ok hl]
      constructor
      · rintro ⟨k, h1, h2⟩
        obtain ⟨l, hl, hm⟩ := (ha.locals _).mp h1
        exact ⟨l, k, hl, hm, h2⟩
      · rintro ⟨l, k, hl, hm, h2⟩
        exact ⟨k, (ha.locals _).mpr ⟨l, hl, hm⟩, h2⟩
  rcases (mem_contexts hg.contexts).1 c hc with ⟨i, hi, hx⟩ | ⟨n, x, hi, hx⟩ | ⟨n, x, hi, hx⟩
  · obtain ⟨args, ha, hsay⟩ := hs.idle _ hi
    obtain ⟨h1, h2, h3, -⟩ := context_ok hx
    exact ⟨_, args, by rw [h1, h2]; exact ha, by rw [h3]; simp, key hx hsay⟩
  · obtain ⟨args, ha, hsay⟩ := hs.hw _ _ hi
    obtain ⟨h1, h2, h3, -⟩ := context_ok hx
    exact ⟨_, args, by rw [h1, h2]; exact ha, by rw [h3]; simp, key hx hsay⟩
  · obtain ⟨args, ha, hsay⟩ := hs.sw _ _ hi
    obtain ⟨h1, h2, h3, -⟩ := context_ok hx
    exact ⟨_, args, by rw [h1, h2]; exact ha, by rw [h3]; simp, key hx hsay⟩

theorem mem_dispatcher (h : expand tg bits raw = .ok p) {t : Ident} {q : Nat} : (∃ o ts, (o, q, ts) ∈ p.dispatchers ∧ t ∈ ts) ↔ ∃ args, TaskIs raw t .software q args := by
  constructor
  · rintro ⟨o, ts, hd, ht⟩
    obtain ⟨app, base, an, he⟩ := expand_ok h
    obtain ⟨-, rfl, -⟩ := (mem_dispatchers (codegen_ok he.codegen)).mp hd
    obtain ⟨st, hst, rfl⟩ := mem_channelTasks.mp ht
    obtain ⟨args, ha, -⟩ := he.says.sw _ _ hst
    exact ⟨args, ha⟩
  · rintro ⟨args, ht⟩
    obtain ⟨o, ts, h1, h2, -⟩ := C44_task_polled_by_own_dispatcher h ht
    exact ⟨o, ts, h1, h2⟩

theorem isTask_iff (h : expand tg bits raw = .ok p) {t : Ident} {k : Kind} {q : Nat} {args : List TaskArg} (ht : TaskIs raw t k q args) : isTask p t = true ↔ k ≠ .idle := by
  simp only [isTask, Bool.or_eq_true, List.any_eq_true, decide_eq_true_eq]
  constructor
  · rintro (⟨⟨v, q', t'⟩, hm, rfl⟩ | ⟨⟨o, q', ts⟩, hm, hts⟩) hk <;> subst hk
    · obtain ⟨args', ht'⟩ := ((C44_dispatchers_not_hardware h).1 _ _ _).mp hm
      cases (EndToEnd.task_unique h ht ht').1
    · obtain ⟨args', ht'⟩ := (mem_dispatcher h).mp ⟨o, ts, hm, hts⟩
      cases (EndToEnd.task_unique h ht ht').1
  · intro hk
    cases k with
    | idle => exact absurd rfl hk
    | hardware v => exact .inl ⟨(v, q, t), ((C44_dispatchers_not_hardware h).1 _ _ _).mpr ⟨_, ht⟩, rfl⟩
    | software =>
      obtain ⟨o, ts, hd, hts⟩ := (mem_dispatcher h).mpr ⟨_, ht⟩
      exact .inr ⟨(o, q, ts), hd, hts⟩

/-- a context exists if its task does -/
theorem mem_enabled_contexts (h : expand tg bits raw = .ok p) {c : Context} : c ∈ (enabled on p).contexts ↔
    ∃ c0 ∈ p.contexts, c = onContext on c0 ∧ ∃ k args, TaskIs raw c0.task k c0.priority args ∧ (k = .idle ∨ on.task c0.task = true) := by
  simp only [enabled, List.mem_map, List.mem_filter, Bool.or_eq_true, Bool.not_eq_true']
  constructor
  · rintro ⟨c0, ⟨hc, ho⟩, rfl⟩
    obtain ⟨k, args, ht, -⟩ := context_says h hc
    refine ⟨c0, hc, rfl, k, args, ht, ?_⟩
    rcases ho with ho | ho
    · left
      cases k with
      | idle => rfl
      | _ => rw [(isTask_iff h ht).mpr (by simp)] at ho; cases ho
    · exact .inr ho
  · rintro ⟨c0, hc, rfl, k, args, ht, ho⟩
    refine ⟨c0, ⟨hc, ?_⟩, rfl⟩
    rcases ho with rfl | ho
    · left
      cases hi : isTask p c0.task with
      | false => rfl
      | true => exact absurd rfl ((isTask_iff h ht).mp hi)
    · exact .inr ho

theorem runs_enabled {n : Nat} {t : Ident} (hr : Runs (enabled on p) n t) : Runs p n t := by
  cases n with
  | zero =>
    rcases hr with hr | ⟨q, ts, hd, ht⟩
    · exact .inl (List.mem_filter.mp hr).1
    · obtain ⟨⟨o, q', ts'⟩, hm, he⟩ := List.mem_map.mp hd
      simp only [Prod.mk.injEq] at he
      obtain ⟨rfl, rfl, rfl⟩ := he
      exact .inr ⟨_, _, hm, (List.mem_filter.mp ht).1⟩
  | succ v =>
    rcases hr with ⟨q, hr⟩ | ⟨q, ts, hd, ht⟩
    · exact .inl ⟨q, (List.mem_filter.mp hr).1⟩
    · obtain ⟨⟨o, q', ts'⟩, hm, he⟩ := List.mem_map.mp hd
      simp only [Prod.mk.injEq] at he
      obtain ⟨rfl, rfl, rfl⟩ := he
      exact .inr ⟨_, _, hm, (List.mem_filter.mp ht).1⟩

theorem lookup_filter {f : Ident → Bool} {l : List (Ident × Nat)} {r : Ident} (h : f r = true) : (l.filter fun x => f x.1).lookup r = l.lookup r := by
  induction l with
  | nil => rfl
  | cons x l ih =>
    obtain ⟨k, v⟩ := x
    by_cases hk : r = k
    · subst hk; simp [h]
    · have hb : (r == k) = false := by simpa using hk
      rw [List.lookup_cons, hb, List.filter_cons]
      split
      · rw [List.lookup_cons, hb]; exact ih
      · exact ih

theorem lookup_filter_none {f : Ident → Bool} {l : List (Ident × Nat)} {r : Ident} (h : f r = false) : (l.filter fun x => f x.1).lookup r = none := by
  rw [List.lookup_eq_none_iff]
  rintro ⟨k, v⟩ hm
  simp only [List.mem_filter] at hm
  rw [bne_iff_ne]
  rintro rfl
  rw [h] at hm
  exact absurd hm.2 (by simp)

theorem uses_enabled (h : expand tg bits raw = .ok p) {n r : Nat} (hu : (cfgOf on bits p).uses n r) : (appCfg bits p).uses n r ∧ on.shared r = true := by
  obtain ⟨c, hc, hr, hm⟩ := hu
  obtain ⟨c0, hc0, rfl, -⟩ := (mem_enabled_contexts h).mp hc
  obtain ⟨h1, h2⟩ := List.mem_filter.mp hm
  exact ⟨⟨c0, hc0, runs_enabled hr, h1⟩, h2⟩

theorem cfgOf_wellFormed (h : expand tg bits raw = .ok p) (hb : bits ≤ 7) (hcol : NoCollision raw) : Srp.WellFormed (cfgOf on bits p) where
  bits := hb
  prio := EndToEnd.handler_prio_le h
  ceil := by
    intro n r hu
    obtain ⟨h1, h2⟩ := uses_enabled h hu
    have := (EndToEnd.appCfg_wellFormed h hb hcol).ceil n r h1
    simpa [cfgOf, appCfg, enabled, lookup_filter (l := p.mutexes) h2] using this
  ceilMax := by
    intro r
    have := (EndToEnd.appCfg_wellFormed h hb hcol).ceilMax r
    cases hr : on.shared r with
    | true => simpa [cfgOf, appCfg, enabled, lookup_filter (l := p.mutexes) hr] using this
    | false => simp [cfgOf, appCfg, enabled, lookup_filter_none (l := p.mutexes) hr]

/-- every existing task on the handlers is a task of the application -/
theorem runs_task (h : expand tg bits raw = .ok p) {n : Nat} {t : Ident} (hr : Runs (enabled on p) n t) : ∃ k args, TaskIs raw t k (handlerPrio p n) args ∧ (k = .idle ∨ on.task t = true) := by
  obtain ⟨k, args, ht⟩ := EndToEnd.runs_prio h (runs_enabled hr)
  refine ⟨k, args, ht, ?_⟩
  have hidle : ∀ {q}, .callIdle t ∈ p.main → TaskIs raw t k q args → k = .idle := by
    intro q hi ht
    obtain ⟨app, base, an, he⟩ := expand_ok h
    rw [(codegen_ok he.codegen).main] at hi
    have : ∃ i, app.idle = some i ∧ i.name = t := by
      simp only [mainStmts, preInitEnable, lastStmt] at hi
      simp at hi
      split at hi
      · rename_i i hi'; exact ⟨i, hi', by simp at hi; exact hi.symm⟩
      · split at hi <;> simp at hi
    obtain ⟨i, hi', rfl⟩ := this
    obtain ⟨args', ha, -⟩ := he.says.idle _ hi'
    exact (EndToEnd.task_unique h ht ha).1
  cases n with
  | zero =>
    rcases hr with hr | ⟨q, ts, hd, hts⟩
    · exact .inl (hidle (List.mem_filter.mp hr).1 ht)
    · obtain ⟨⟨o, q', ts'⟩, hm, he⟩ := List.mem_map.mp hd
      simp only [Prod.mk.injEq] at he
      obtain ⟨rfl, rfl, rfl⟩ := he
      exact .inr (List.mem_filter.mp hts).2
  | succ v =>
    rcases hr with ⟨q, hr⟩ | ⟨q, ts, hd, hts⟩
    · exact .inr (List.mem_filter.mp hr).2
    · obtain ⟨⟨o, q', ts'⟩, hm, he⟩ := List.mem_map.mp hd
      simp only [Prod.mk.injEq] at he
      obtain ⟨rfl, rfl, rfl⟩ := he
      exact .inr (List.mem_filter.mp hts).2

/-! ## The theorems -/

/-- **C85** (no need to switch on) If an application is accepted with all its parts, then it is accepted without those that are switched off. -/
theorem C85_source_accepted (on : Switch) (h : expand tg bits raw = .ok p) : ∃ p', expand tg bits (on.source raw) = .ok p' :=
  (C84_accepted_iff _ _ _).mpr (valid_source ((C84_accepted_iff _ _ _).mp ⟨p, h⟩))

/-- **C85** (handlers) The generated code contains the same handlers for hardware tasks as that of the application without the parts that are switched off. -/
theorem C85_handlers (h : expand tg bits raw = .ok p) (h' : expand tg bits (on.source raw) = .ok p') (v : Ident) (q : Nat) (t : Ident) :
    (v, q, t) ∈ (enabled on p).hwHandlers ↔ (v, q, t) ∈ p'.hwHandlers := by
  simp only [enabled, List.mem_filter]
  rw [(C44_dispatchers_not_hardware h).1, (C44_dispatchers_not_hardware h').1]
  simp only [taskIs_source]
  constructor
  · rintro ⟨⟨args, ht⟩, hon⟩; exact ⟨_, .inr hon, args, ht, rfl⟩
  · rintro ⟨_, hon, args, ht, rfl⟩
    refine ⟨⟨args, ht⟩, ?_⟩
    rcases hon with hk | hon
    · cases hk
    · exact hon

/-- **C85** (software tasks) The same software tasks are polled at the same priorities; spawning or waking an existing task pends an interrupt whose dispatcher polls it; the same tasks can be spawned from the same places. -/
theorem C85_software_tasks (h : expand tg bits raw = .ok p) (h' : expand tg bits (on.source raw) = .ok p') :
    (∀ t q, (∃ o ts, (o, q, ts) ∈ (enabled on p).dispatchers ∧ t ∈ ts) ↔ ∃ o ts, (o, q, ts) ∈ p'.dispatchers ∧ t ∈ ts) ∧
    (∀ t o q ts, (o, q, ts) ∈ (enabled on p).dispatchers → t ∈ ts → ∀ o', (t, o') ∈ (enabled on p).pends ↔ o' = o) ∧
    (∀ t, (∃ o, (t, o) ∈ (enabled on p).pends) ↔ ∃ o, (t, o) ∈ p'.pends) ∧
    (∀ t, t ∈ (enabled on p).freeSpawn ↔ t ∈ p'.freeSpawn) ∧ ∀ s t, (s, t) ∈ (enabled on p).localSpawn ↔ (s, t) ∈ p'.localSpawn := by
  have hd : ∀ t o q ts, ((o, q, ts) ∈ (enabled on p).dispatchers ∧ t ∈ ts) ↔ ∃ ts', (o, q, ts') ∈ p.dispatchers ∧ t ∈ ts' ∧ on.task t = true ∧ ts = ts'.filter on.task := by
    intro t o q ts
    simp only [enabled, List.mem_map]
    constructor
    · rintro ⟨⟨⟨o, q', ts'⟩, hm, he⟩, ht⟩
      simp only [Prod.mk.injEq] at he
      obtain ⟨rfl, rfl, rfl⟩ := he
      obtain ⟨h1, h2⟩ := List.mem_filter.mp ht
      exact ⟨ts', hm, h1, h2, rfl⟩
    · rintro ⟨ts', hm, h1, h2, rfl⟩
      exact ⟨⟨_, hm, rfl⟩, List.mem_filter.mpr ⟨h1, h2⟩⟩
  have hsw : ∀ t q, (∃ args, TaskIs (on.source raw) t .software q args) ↔ on.task t = true ∧ ∃ args, TaskIs raw t .software q args := by
    intro t q
    simp only [taskIs_source]
    constructor
    · rintro ⟨_, hon, args, ht, rfl⟩
      rcases hon with hk | hon
      · cases hk
      · exact ⟨hon, args, ht⟩
    · rintro ⟨hon, args, ht⟩; exact ⟨_, .inr hon, args, ht, rfl⟩
  have hlt : ∀ t b ins, IsLocalTask (on.source raw) t b ins ↔ on.task t = true ∧ IsLocalTask raw t b ins := by
    intro t b ins
    constructor
    · rintro ⟨args, as, ok, hm, hb, hl⟩
      obtain ⟨hon, args', hm', rfl⟩ := mem_task.mp hm
      simp only [mem_binds, mem_localTask] at hb hl
      exact ⟨hon, args', as, ok, hm', hb, hl⟩
    · rintro ⟨hon, args, as, ok, hm, hb, hl⟩
      refine ⟨_, as, ok, mem_task.mpr ⟨hon, args, hm, rfl⟩, ?_⟩
      simp only [mem_binds, mem_localTask]
      exact ⟨hb, hl⟩
  have hp : ∀ {raw : Raw} {p : Program}, expand tg bits raw = .ok p → ∀ t, (∃ o, (t, o) ∈ p.pends) ↔ ∃ q args, TaskIs raw t .software q args := by
    intro raw p h t
    constructor
    · rintro ⟨o, hm⟩
      obtain ⟨app, base, an, he⟩ := expand_ok h
      obtain ⟨st, hst, -⟩ := (mem_pends (codegen_ok he.codegen)).mp hm
      obtain ⟨args, ha, -⟩ := he.says.sw _ _ hst
      exact ⟨_, args, ha⟩
    · rintro ⟨q, args, ht⟩
      obtain ⟨o, ts, -, -, hpe, -⟩ := C44_task_polled_by_own_dispatcher h ht
      exact ⟨o, (hpe o).mpr rfl⟩
  obtain ⟨f1, f2, -⟩ := C61_local_tasks_stay_on_executor h
  obtain ⟨g1, g2, -⟩ := C61_local_tasks_stay_on_executor h'
  refine ⟨?_, ?_, ?_, ?_, ?_⟩
  · intro t q
    rw [mem_dispatcher h', hsw, ← mem_dispatcher h]
    simp only [hd]
    constructor
    · rintro ⟨o, ts, ts', h1, h2, h3, -⟩; exact ⟨h3, o, ts', h1, h2⟩
    · rintro ⟨h3, o, ts', h1, h2⟩; exact ⟨o, _, ts', h1, h2, h3, rfl⟩
  · intro t o q ts hm ht o'
    obtain ⟨ts', h1, h2, h3, -⟩ := (hd t o q ts).mp ⟨hm, ht⟩
    obtain ⟨args, hti⟩ := (mem_dispatcher h).mp ⟨o, ts', h1, h2⟩
    obtain ⟨o1, ts1, k1, k2, k3, k4⟩ := C44_task_polled_by_own_dispatcher h hti
    obtain ⟨rfl, -⟩ := k4 _ _ _ h1 h2
    rw [← k3 o']
    simp only [enabled, List.mem_filter]
    exact ⟨fun h => h.1, fun h => ⟨h, h3⟩⟩
  · intro t
    rw [hp h']
    have : (∃ o, (t, o) ∈ (enabled on p).pends) ↔ on.task t = true ∧ ∃ o, (t, o) ∈ p.pends := by
      simp only [enabled, List.mem_filter]
      exact ⟨fun ⟨o, a, b⟩ => ⟨b, o, a⟩, fun ⟨b, o, a⟩ => ⟨o, a, b⟩⟩
    rw [this, hp h]
    constructor
    · rintro ⟨hon, q, args, ht⟩; exact ⟨q, (hsw t q).mpr ⟨hon, args, ht⟩⟩
    · rintro ⟨q, hq⟩
      obtain ⟨hon, args, ht⟩ := (hsw t q).mp hq
      exact ⟨hon, q, args, ht⟩
  · intro t
    rw [g1]
    simp only [enabled, List.mem_filter, f1, hlt]
    exact ⟨fun ⟨⟨i, a⟩, b⟩ => ⟨i, b, a⟩, fun ⟨i, b, a⟩ => ⟨⟨i, a⟩, b⟩⟩
  · intro s t
    rw [g2]
    simp only [enabled, List.mem_filter, f2, Bool.and_eq_true, hlt]
    constructor
    · rintro ⟨⟨q, a, a', ins, h1, h2, h3⟩, h4, h5⟩
      obtain ⟨b, hb⟩ := (hsw s q).mpr ⟨h4, a, h1⟩
      obtain ⟨b', hb'⟩ := (hsw t q).mpr ⟨h5, a', h2⟩
      exact ⟨q, b, b', ins, hb, hb', h5, h3⟩
    · rintro ⟨q, a, a', ins, h1, h2, h5, h3⟩
      obtain ⟨h4, b, hb⟩ := (hsw s q).mp ⟨a, h1⟩
      obtain ⟨-, b', hb'⟩ := (hsw t q).mp ⟨a', h2⟩
      exact ⟨⟨q, b, b', ins, hb, hb', h3⟩, h4, h5⟩

theorem sameContext (h : expand tg bits raw = .ok p) (h' : expand tg bits (on.source raw) = .ok p') {c c' : Context} (hc : c ∈ p.contexts) (hc' : c' ∈ p'.contexts) (ht : c.task = c'.task) :
    SameContext (onContext on c) c' := by
  obtain ⟨k, args, h1, h2, h3, h4⟩ := context_says h hc
  obtain ⟨k', args', g1, g2, g3, g4⟩ := context_says h' hc'
  obtain ⟨-, args'', g1', rfl⟩ := taskIs_source.mp g1
  rw [← ht] at g1' g4
  obtain ⟨rfl, hq⟩ := EndToEnd.task_unique h h1 g1'
  cases taskIs_args (itemsValid h) h1 g1'
  refine ⟨ht, hq, ?_, ?_, ?_⟩
  · show c.isAsync = c'.isAsync
    cases e1 : c.isAsync <;> cases e2 : c'.isAsync
    · rfl
    · exact absurd (h2.mpr (g2.mp e2)) (by rw [e1]; simp)
    · exact absurd (g2.mpr (h2.mp e1)) (by rw [e2]; simp)
    · rfl
  · rintro ⟨r, hd⟩
    simp only [onContext, List.mem_filter, h3, g3, mem_shared, sharedField_source]
    constructor
    · rintro ⟨⟨l, a, res, k1, k2, k3, k4⟩, hon⟩
      exact ⟨_, a, res, ⟨l, k1, rfl⟩, List.mem_filter.mpr ⟨k2, hon⟩, ⟨k3, hon⟩, k4⟩
    · rintro ⟨_, a, res, ⟨l, k1, rfl⟩, k2, ⟨k3, hon⟩, k4⟩
      exact ⟨⟨l, a, res, k1, (List.mem_filter.mp k2).1, k3, k4⟩, hon⟩
  · rintro ⟨r, b⟩
    simp only [onContext, List.mem_filter, h4, g4, mem_locals]
    constructor
    · rintro ⟨⟨l, kk, k1, k2, k3⟩, hon⟩
      have : (r, kk) ∈ l.filter (on.hasLocal c.task) := by
        refine List.mem_filter.mpr ⟨k2, ?_⟩
        cases kk with
        | external => rw [k3.mpr rfl] at hon; simpa [Switch.hasLocal] using hon
        | declared ty =>
          cases b with
          | true => exact absurd (k3.mp rfl) (by simp)
          | false => simpa [Switch.hasLocal] using hon
      exact ⟨_, kk, ⟨List.ne_nil_of_mem this, l, k1, rfl⟩, this, k3⟩
    · rintro ⟨_, kk, ⟨-, l, k1, rfl⟩, k2, k3⟩
      obtain ⟨k2, hon⟩ := List.mem_filter.mp k2
      refine ⟨⟨l, kk, k1, k2, k3⟩, ?_⟩
      cases kk with
      | external => rw [k3.mpr rfl]; simpa [Switch.hasLocal] using hon
      | declared ty =>
        cases b with
        | true => exact absurd (k3.mp rfl) (by simp)
        | false => simpa [Switch.hasLocal] using hon

/-- **C85** (contexts) Existing tasks have the context they have in the application without the parts that are switched off: the same resources, accessed in the same way. -/
theorem C85_contexts (h : expand tg bits raw = .ok p) (h' : expand tg bits (on.source raw) = .ok p') :
    (∀ c ∈ (enabled on p).contexts, ∃ c' ∈ p'.contexts, SameContext c c') ∧ ∀ c' ∈ p'.contexts, ∃ c ∈ (enabled on p).contexts, SameContext c c' := by
  constructor
  · intro c hc
    obtain ⟨c0, hc0, rfl, k, args, ht, hon⟩ := (mem_enabled_contexts h).mp hc
    obtain ⟨c', hc', e, -⟩ := C40_handles h' (taskIs_source.mpr ⟨hon, args, ht, rfl⟩)
    exact ⟨c', hc', sameContext h h' hc0 hc' e.symm⟩
  · intro c' hc'
    obtain ⟨k, args, ht, -⟩ := context_says h' hc'
    obtain ⟨hon, args', ht', rfl⟩ := taskIs_source.mp ht
    obtain ⟨c, hc, e, -⟩ := C40_handles h ht'
    refine ⟨_, (mem_enabled_contexts h).mpr ⟨c, hc, rfl, ?_⟩, sameContext h h' hc hc' e⟩
    obtain ⟨k2, args2, ht2, -⟩ := context_says h hc
    rw [e] at ht2
    obtain ⟨rfl, -⟩ := EndToEnd.task_unique h ht2 ht'
    exact ⟨_, args2, by rw [e]; exact ht2, by rw [e]; exact hon⟩

/-- **C85** (locking) A shared resource has a ceiling if and only if it has one in the application without the parts that are switched off, and that may only be higher. -/
theorem C85_ceilings (h : expand tg bits raw = .ok p) (h' : expand tg bits (on.source raw) = .ok p') (hcol : NoCollision raw) (r : Ident) :
    ((∃ c, (r, c) ∈ (enabled on p).mutexes) ↔ ∃ c, (r, c) ∈ p'.mutexes) ∧ ∀ c c', (r, c) ∈ (enabled on p).mutexes → (r, c') ∈ p'.mutexes → c' ≤ c := by
  have hm : ∀ {raw : Raw} {p : Program}, expand tg bits raw = .ok p → ((∃ c, (r, c) ∈ p.mutexes) ↔ ∃ res, SharedField raw r res ∧ res.lockFree = false) := by
    intro raw p h
    obtain ⟨app, base, an, he⟩ := expand_ok h
    rw [(codegen_ok he.codegen).mutexes]
    simp only [List.mem_map, List.mem_filter, Prod.mk.injEq, Bool.not_eq_true']
    constructor
    · rintro ⟨c, ⟨k, res⟩, ⟨hk, hl⟩, rfl, -⟩
      exact ⟨res, (he.says.sharedRes _ _).mp hk, hl⟩
    · rintro ⟨res, hf, hl⟩
      exact ⟨_, (r, res), ⟨(he.says.sharedRes _ _).mpr hf, hl⟩, rfl, rfl⟩
  constructor
  · rw [hm h']
    have : (∃ c, (r, c) ∈ (enabled on p).mutexes) ↔ on.shared r = true ∧ ∃ c, (r, c) ∈ p.mutexes := by
      simp only [enabled, List.mem_filter]
      exact ⟨fun ⟨o, a, b⟩ => ⟨b, o, a⟩, fun ⟨b, o, a⟩ => ⟨o, a, b⟩⟩
    rw [this, hm h]
    simp only [sharedField_source]
    exact ⟨fun ⟨b, o, a, c⟩ => ⟨o, ⟨a, b⟩, c⟩, fun ⟨o, ⟨a, b⟩, c⟩ => ⟨b, o, a, c⟩⟩
  · intro c c' hc hc'
    obtain ⟨res, hf, hl⟩ := (hm h').mp ⟨c', hc'⟩
    obtain ⟨hf0, hon⟩ := sharedField_source.mp hf
    obtain ⟨ce, hu, hmax, -⟩ := C40_ceiling_is_max_partial h hf0 hl (fun t q hl => hcol t q r res hl hf0)
    obtain ⟨ce', hu', -, hatt⟩ := C40_ceiling_is_max_partial h' hf hl (fun t q hl => hcol t q r res (usesLocal_source hl).1 hf0)
    have e1 := (hu c).mp (List.mem_filter.mp hc).1
    have e2 := (hu' c').mp hc'
    subst e1 e2
    rcases hatt with ⟨t, a, hua⟩ | ⟨rfl, -⟩
    · exact hmax _ _ _ (usesShared_source hua).1
    · exact Nat.zero_le _

/-- **C85** (initialisation) In the generated `main`, before interrupts are enabled, every resource that exists and that some existing task has in its context is written; nothing is written that does not exist. -/
theorem C85_initialised (h : expand tg bits raw = .ok p) : ∃ before after, (enabled on p).main = before ++ .enableInterrupts :: after ∧ .enableInterrupts ∉ before ∧
    (∀ c ∈ (enabled on p).contexts, (∀ r hd, (r, hd) ∈ c.shared → .writeShared r ∈ before) ∧ ∀ r, (r, true) ∈ c.locals → .writeLocal r ∈ before) ∧
    ∀ r, (.writeShared r ∈ (enabled on p).main → on.shared r = true ∧ ∃ res, SharedField raw r res) ∧ (.writeLocal r ∈ (enabled on p).main → on.locals r = true ∧ ∃ ty, LocalField raw r ty) := by
  obtain ⟨A, E, last, hm, hA, hE, hl, -, -, hS, hL⟩ := Startup.main_shape h
  refine ⟨(Stmt.disableInterrupts :: A ++ [Stmt.callInit] ++ E).filter (onStmt on), [last].filter (onStmt on), ?_, ?_, ?_, ?_⟩
  · show p.main.filter (onStmt on) = _
    rw [hm, List.filter_append, List.filter_cons]
    rfl
  · intro hh
    have := (List.mem_filter.mp hh).1
    simp only [List.mem_cons, List.mem_append, List.cons_append] at this
    rcases this with e | (hh | e | e) | hh
    · cases e
    · rcases hA _ hh with ⟨_, _, e⟩ | ⟨_, e⟩ <;> cases e
    · cases e
    · cases e
    · rcases hE _ hh with ⟨_, e⟩ | ⟨_, e⟩ <;> cases e
  · intro c hc
    obtain ⟨c0, hc0, rfl, -⟩ := (mem_enabled_contexts h).mp hc
    obtain ⟨-, hsh, hlo⟩ := EndToEnd.context_task h hc0
    constructor
    · intro r hd hm
      obtain ⟨h1, h2⟩ := List.mem_filter.mp hm
      obtain ⟨a, res, hu, -⟩ := hsh r hd h1
      exact List.mem_filter.mpr ⟨by simp [hS _ _ _ _ hu], h2⟩
    · intro r hm
      obtain ⟨h1, h2⟩ := List.mem_filter.mp hm
      exact List.mem_filter.mpr ⟨by simp [hL _ _ _ (hlo r h1)], h2⟩
  · obtain ⟨app, base, an, he⟩ := expand_ok h
    intro r
    constructor
    · intro hm
      obtain ⟨h1, h2⟩ := List.mem_filter.mp hm
      refine ⟨h2, ?_⟩
      rw [(codegen_ok he.codegen).main] at h1
      simp only [mainStmts, preInitEnable, lastStmt, List.mem_append, List.mem_map, List.mem_filter, List.mem_flatMap, List.mem_singleton, List.mem_cons, reduceCtorEq, or_false, and_false, exists_false, false_or,
        Stmt.writeShared.injEq, List.not_mem_nil] at h1
      rcases h1 with ⟨x, ⟨hx, -⟩, rfl⟩ | h1
      · exact ⟨x.2, (he.says.sharedRes _ _).mp hx⟩
      · split at h1
        · cases h1
        · split at h1 <;> cases h1
    · intro hm
      obtain ⟨h1, h2⟩ := List.mem_filter.mp hm
      refine ⟨h2, ?_⟩
      rw [(codegen_ok he.codegen).main] at h1
      simp only [mainStmts, preInitEnable, lastStmt, List.mem_append, List.mem_map, List.mem_filter, List.mem_flatMap, List.mem_singleton, List.mem_cons, reduceCtorEq, or_false, and_false, exists_false, false_or,
        Stmt.writeLocal.injEq, List.not_mem_nil] at h1
      rcases h1 with ⟨x, ⟨hx, -⟩, rfl⟩ | h1
      · exact ⟨x.2, (he.says.localRes _ _).mp hx⟩
      · split at h1
        · cases h1
        · split at h1 <;> cases h1

/-- **C85** (checks) If no field of the `#[local]` struct has the name of a field of the `#[shared]` struct, every type that has to be `Send` or `Sync` without the parts that are switched off is checked;
the limit for async drivers is not above the one without those parts. -/
theorem C85_checks (h : expand tg bits raw = .ok p) (h' : expand tg bits (on.source raw) = .ok p') (hcol : DistinctFields raw) :
    (∀ ty ∈ p'.sendAsserts, ty ∈ (enabled on p).sendAsserts) ∧ (∀ ty ∈ p'.syncAsserts, ty ∈ (enabled on p).syncAsserts) ∧
    ∀ m, p'.asyncMax = some m → ∃ m', (enabled on p).asyncMax = some m' ∧ m' ≤ m := by
  obtain ⟨c1, c2, c3⟩ := C45_resources_validated h
  refine ⟨?_, ?_, ?_⟩
  · intro ty hty
    show ty ∈ p.sendAsserts
    rcases C43_send_only h' hty with ⟨r, t, q, hf, hu, hq⟩ | ⟨t, ins, ⟨args, as, ok, hm, hb, hl⟩, hty⟩
    · rcases hf with ⟨res, hf, rfl⟩ | hf
      · obtain ⟨hf, -⟩ := sharedField_source.mp hf
        have hno : ∀ t q, ¬ UsesLocal raw t q r := fun t q hu => by
          obtain ⟨ty, hl⟩ := c2 _ _ _ hu
          exact hcol _ _ _ hf hl
        rcases hu with ⟨a, hu⟩ | hu
        · exact C43_shared_send_partial h hf (usesShared_source hu).1 hq hno
        · exact absurd (usesLocal_source hu).1 (hno _ _)
      · obtain ⟨hf, -⟩ := localField_source.mp hf
        rcases hu with ⟨a, hu⟩ | hu
        · obtain ⟨res, hs⟩ := c1 _ _ _ _ (usesShared_source hu).1
          exact absurd hf (hcol _ _ _ hs)
        · exact C43_local_send h hf (usesLocal_source hu).1 hq
    · obtain ⟨-, args', hm', rfl⟩ := mem_task.mp hm
      simp only [mem_binds, mem_localTask] at hb hl
      exact C43_inputs_send h ⟨args', as, ok, hm', hb, hl.imp id fun hh => ⟨rfl, hh.2⟩⟩ hty
  · intro ty hty
    show ty ∈ p.syncAsserts
    obtain ⟨r, res, t, q, t', q', a, hf, rfl, hu, hu', hne⟩ := C43_sync_only h' hty
    have u1 := (usesShared_source hu).1
    have u2 := (usesShared_source hu').1
    cases c3 _ _ _ _ _ _ _ u1 u2
    exact C43_sync h (sharedField_source.mp hf).1 u1 u2 hne
  · intro m hm
    show ∃ m', p.asyncMax = some m' ∧ m' ≤ m
    obtain ⟨-, t, b, args, ht⟩ := (C55_async_limit h').2 m hm
    obtain ⟨-, args', ht, -⟩ := taskIs_source.mp ht
    cases hp : p.asyncMax with
    | none => exact absurd ht ((C55_async_limit h).1 hp _ _ _ _)
    | some m' => exact ⟨m', rfl, Nat.le_of_lt_succ (((C55_async_limit h).2 m' hp).1 _ _ _ _ ht)⟩

/-- **C85** (lock) As C64, for the code that exists, whatever is switched off: while a task is inside `lock` on `r`, no handler started since then executes an existing task that has `r` in its list. -/
theorem C85_lock_exclusive (h : expand tg bits raw = .ok p) (hb : bits ≤ 7) (hcol : NoCollision raw) {as : List Srp.Act} {s : Srp.St} (hx : Srp.Exec (cfgOf on bits p) (Srp.start 0) as s)
    {above below : List Srp.Rec} {x y : Srp.Rec} {r : Ident} {n : Nat} (hst : s.stack = above ++ x :: below) (hl : Srp.InsideLock r x) (hy : y ∈ above) (hn : Srp.ActivationOf n y)
    {t : Ident} (ht : Runs (enabled on p) n t) (q : Nat) (a : Access) : ¬ UsesShared raw t q r a := by
  intro hu
  have hno := Srp.C46_mutual_exclusion (cfgOf_wellFormed h hb hcol) (idle := 0) rfl hx hst hl hy hn
  have hx1 : ∃ m, (cfgOf on bits p).uses m r := by
    refine EndToEnd.stack_uses hx x (by rw [hst]; simp) r ?_
    cases x with
    | lk r' m => simp only [Srp.InsideLock] at hl; subst hl; rfl
    | cs o m => cases o with
      | none => exact absurd hl id
      | some r' => simp only [Srp.InsideLock] at hl; subst hl; rfl
    | _ => exact absurd hl id
  obtain ⟨m, hum⟩ := hx1
  obtain ⟨⟨c, hc, -, hm⟩, hon⟩ := uses_enabled h hum
  obtain ⟨a', res, hu', hf, hh⟩ := (EndToEnd.context_task h hc).2.1 r _ hm
  have hae : a' = .exclusive ∧ res.lockFree = false := by
    unfold handleOf at hh
    cases hlf : res.lockFree <;> cases a' <;> simp [hlf] at hh ⊢
  have ha : a = .exclusive := by rw [← hae.1]; exact (C45_resources_validated h).2.2 _ _ _ _ _ _ _ hu hu'
  subst ha
  obtain ⟨k, args, l, hti, hla, hrl⟩ := hu
  obtain ⟨c, hc, hct, hcp, -, hproxy, -⟩ := C40_handles h hti
  obtain ⟨k', args', ht', hon'⟩ := runs_task h ht
  obtain ⟨rfl, -⟩ := EndToEnd.task_unique h hti ht'
  subst hct
  exact hno ⟨onContext on c, (mem_enabled_contexts h).mpr ⟨c, hc, rfl, k, args, by rw [hcp]; exact hti, hon'⟩, ht, List.mem_filter.mpr ⟨(hproxy r).mpr ⟨⟨l, hla, hrl⟩, res, hf, hae.2⟩, hon⟩⟩

theorem active_prio (h : expand tg bits raw = .ok p) (hb : bits ≤ 7) (hcol : NoCollision raw) {as : List Srp.Act} {s : Srp.St} (hx : Srp.Exec (cfgOf on bits p) (Srp.start 0) as s)
    {above below : List Srp.Rec} {x y : Srp.Rec} {n m : Nat} (hst : s.stack = above ++ x :: below) (hn : Srp.ActivationOf n x) (hy : y ∈ below) (hm : Srp.ActivationOf m y)
    {t t' : Ident} (ht : Runs (enabled on p) n t) (ht' : Runs (enabled on p) m t') {q q' : Nat} {k k' : Kind} {args args' : List TaskArg} (hi : TaskIs raw t k q args) (hi' : TaskIs raw t' k' q' args') : q' < q := by
  have hlt : handlerPrio p m < handlerPrio p n := Srp.C52_running_is_highest (cfgOf_wellFormed h hb hcol) (idle := 0) rfl hx hst hn hy hm
  obtain ⟨_, _, h1⟩ := EndToEnd.runs_prio h (runs_enabled ht)
  obtain ⟨_, _, h2⟩ := EndToEnd.runs_prio h (runs_enabled ht')
  have e1 := (EndToEnd.task_unique h hi h1).2
  have e2 := (EndToEnd.task_unique h hi' h2).2
  omega

/-- **C85** (`lock_free`, local) As C64: existing tasks of two handlers active at the same time share neither a `lock_free` nor a `#[local]` resource. -/
theorem C85_unlocked_exclusive (h : expand tg bits raw = .ok p) (hb : bits ≤ 7) (hcol : NoCollision raw) {as : List Srp.Act} {s : Srp.St} (hx : Srp.Exec (cfgOf on bits p) (Srp.start 0) as s)
    {above below : List Srp.Rec} {x y : Srp.Rec} {n m : Nat} (hst : s.stack = above ++ x :: below) (hn : Srp.ActivationOf n x) (hy : y ∈ below) (hm : Srp.ActivationOf m y)
    {t t' : Ident} (ht : Runs (enabled on p) n t) (ht' : Runs (enabled on p) m t') (r : Ident) (q q' : Nat) :
    (∀ res a a', SharedField raw r res → res.lockFree = true → UsesShared raw t q r a → ¬ UsesShared raw t' q' r a') ∧ (UsesLocal raw t q r → ¬ UsesLocal raw t' q' r) := by
  constructor
  · intro res a a' hr hlf hu hu'
    have heq := (C41_lock_free_single_priority h hr hlf).1 _ _ _ _ _ _ hu hu'
    obtain ⟨k, args, l, hti, -⟩ := hu
    obtain ⟨k', args', l', hti', -⟩ := hu'
    have := active_prio h hb hcol hx hst hn hy hm ht ht' hti hti'
    omega
  · intro hu hu'
    obtain ⟨ty, hr⟩ := (C45_resources_validated h).2.1 _ _ _ hu
    have heq := (C42_local_exclusive h hr).1 _ _ _ _ hu hu'
    subst heq
    obtain ⟨k, args, l, hti, -⟩ := hu
    obtain ⟨k', args', l', hti', -⟩ := hu'
    have := active_prio h hb hcol hx hst hn hy hm ht ht' hti hti'
    have := (EndToEnd.task_unique h hti hti').2
    omega

/-- The interrupt of a hardware task that is switched off is unmasked all the same, and nothing handles it. -/
theorem C85_unhandled (h : expand tg bits raw = .ok p) {t v : Ident} {q : Nat} {args : List TaskArg} (ht : TaskIs raw t (.hardware v) q args) (hoff : on.task t = false) (hv : tg.isException v = false) :
    .unmask v ∈ (enabled on p).main ∧ (∀ q' t', (v, q', t') ∉ (enabled on p).hwHandlers) ∧ ∀ q' ts, (some v, q', ts) ∉ (enabled on p).dispatchers := by
  obtain ⟨A, E, last, hm, -, -, -, -, hU, -⟩ := Startup.main_shape h
  have hh := ((C44_dispatchers_not_hardware h).1 v q t).mpr ⟨args, ht⟩
  refine ⟨List.mem_filter.mpr ⟨?_, rfl⟩, ?_, ?_⟩
  · rw [hm]; simp [(hU v).mpr (.inl ⟨q, t, hh, hv⟩)]
  · intro q' t' hm'
    obtain ⟨h1, h2⟩ := List.mem_filter.mp hm'
    have := EndToEnd.nodup_fst (C44_dispatchers_not_hardware h).2.1 h1 hh
    cases this
    rw [hoff] at h2
    cases h2
  · intro q' ts hm'
    obtain ⟨⟨o, q2, ts'⟩, hm2, he⟩ := List.mem_map.mp hm'
    simp only [Prod.mk.injEq] at he
    obtain ⟨rfl, -⟩ := he
    exact (C44_dispatchers_not_hardware h).2.2 _ _ _ _ _ hh hm2

/-! ## Examples, and what does not hold -/

/-- in the example of `Verif.Analysis`: hardware task 20, software task 24, shared resource 12 and the resource declared by idle are switched off -/
def exOn : Switch := { task := fun t => t ≠ 20 && t ≠ 24, shared := fun r => r ≠ 12, locals := fun _ => true, declared := fun t r => !(t = 4 && r = 14) }

/-- what is compiled -/
def exEnabled : Program :=
  { contexts := [
      { task := 4, priority := 0, isAsync := false, shared := [(10, .proxy)], locals := [] },
      { task := 21, priority := 2, isAsync := false, shared := [(11, .direct)], locals := [] },
      { task := 22, priority := 1, isAsync := true, shared := [(10, .proxy)], locals := [(13, true)] },
      { task := 23, priority := 3, isAsync := true, shared := [], locals := [] }],
    mutexes := [(10, 2)],
    hwHandlers := [(61, 2, 21)],
    dispatchers := [(some 50, 1, [22]), (some 51, 3, [23])],
    pends := [(22, some 50), (23, some 51)],
    localSpawn := [],
    freeSpawn := [22, 23],
    sendAsserts := [110, 111, 112, 113, 40],
    syncAsserts := [112],
    asyncMax := some 1,
    main := [.disableInterrupts, .setPriority 50 1, .unmask 50, .setPriority 51 3, .unmask 51, .setPriority 60 2, .unmask 60, .setPriority 61 2, .unmask 61, .callInit,
      .writeShared 10, .writeShared 11, .writeLocal 13, .enableInterrupts, .callIdle 4] }

/-- what is generated if they are deleted -/
def exDeleted : Program :=
  { exEnabled with
    mutexes := [(10, 1)], sendAsserts := [110, 111, 113, 40], syncAsserts := [],
    main := [.disableInterrupts, .setPriority 50 1, .unmask 50, .setPriority 51 3, .unmask 51, .setPriority 61 2, .unmask 61, .callInit, .writeShared 10, .writeShared 11, .writeLocal 13, .enableInterrupts, .callIdle 4] }

theorem exEnabled_eq : enabled exOn exProg = exEnabled := by decide +kernel
theorem exDeleted_eq : expand exTarget 4 (exOn.source exRaw) = .ok exDeleted := by decide +kernel

example : DistinctFields exRaw ∧ expand exTarget 4 exRaw = .ok exProg := by
  refine ⟨?_, exRaw_accepted⟩
  rintro r res ty ⟨i, f, hm, hr⟩ ⟨j, g, hm', hr'⟩
  simp [exRaw] at hm hm'
  obtain ⟨-, rfl⟩ := hm
  obtain ⟨-, rfl⟩ := hm'
  simp at hr hr'
  rcases hr with ⟨rfl, -⟩ | ⟨rfl, -⟩ | ⟨rfl, -⟩ <;> exact absurd hr'.1 (by decide)

/-- idle inside `lock` on 10, preempted by the dispatcher of the existing task 23 -/
example : ∃ as s, Srp.Exec (cfgOf exOn 4 exProg) (Srp.start 0) as s ∧ s.stack = [.enter 52, .lk 10 0, .body 0 none] ∧ Runs (enabled exOn exProg) 52 23 := by
  refine ⟨[] ++ [.lock 10] ++ [.raise] ++ [.irq 52], ⟨[.enter 52, .lk 10 0, .body 0 none], 0xe0, false⟩, ?_, rfl, ?_⟩
  · refine .snoc (.snoc (.snoc (.nil _) (.lock 0 10 rfl rfl ?_ (by decide))) (.raise 10 0 _ rfl)) (.irq 52 0 rfl (by decide) (by decide))
    refine ⟨{ task := 4, priority := 0, isAsync := false, shared := [(10, .proxy)], locals := [] }, by decide, ?_, by decide⟩
    show Runs (enabled exOn exProg) 0 4
    exact .inl (by decide)
  · exact .inr ⟨3, [23], by decide, by decide⟩

/-- **C85** does not hold for interrupts: in the example, task 20 is switched off, its interrupt 60 is configured and unmasked in the generated code and handled by nothing; without the task it is left alone. -/
theorem C85_interrupts_violated : .unmask 60 ∈ (enabled exOn exProg).main ∧ (∀ q t, (60, q, t) ∉ (enabled exOn exProg).hwHandlers) ∧ (∀ q ts, (some 60, q, ts) ∉ (enabled exOn exProg).dispatchers) ∧
    .unmask 60 ∉ exDeleted.main := by
  obtain ⟨h1, h2, h3⟩ := C85_unhandled (on := exOn) exRaw_accepted (t := 20) (v := 60) (q := 2) (.hardware (as := false) (ins := []) (ok := true) (args := [.binds 60, .priority 2, .shared [(10, .exclusive), (11, .exclusive), (12, .shared)]]) (by decide) (by decide) (.inl (by decide))) rfl rfl
  exact ⟨h1, h2, h3, by decide⟩

/-- **C85** does not hold for the checks of types: in the example, the type 112 of the resource that is switched off has to be `Send` and `Sync`; without the resource it has not. -/
theorem C85_bounds_violated : 112 ∈ (enabled exOn exProg).sendAsserts ∧ 112 ∈ (enabled exOn exProg).syncAsserts ∧ 112 ∉ exDeleted.sendAsserts ∧ 112 ∉ exDeleted.syncAsserts := by
  rw [exEnabled_eq]; decide

/-- two tasks for the same interrupt, for two variants of the hardware -/
def exVariants : Raw :=
  { dispatchers := [], items := [.sharedStruct 1 [], .localStruct 2 [], .init 3 [] true 1 2, .task 20 [.binds 60] false [] true, .task 21 [.binds 60] false [] true] }

/-- **C85** does not hold for mutually exclusive parts: `exVariants` is refused, although it follows the rules whichever of the two tasks is switched off. -/
theorem C85_variants_violated : (∀ p, expand exTarget 4 exVariants ≠ .ok p) ∧
    ∀ t, t = 20 ∨ t = 21 → ∃ p, expand exTarget 4 (({ task := (· ≠ t), shared := fun _ => true, locals := fun _ => true, declared := fun _ _ => true } : Switch).source exVariants) = .ok p := by
  constructor
  · intro p hp
    have := ((C84_accepted_iff _ _ _).mp ⟨p, hp⟩).items.binds 20 21 60 1 1 [.binds 60] [.binds 60] (.hardware (as := false) (ins := []) (ok := true) (by decide) (by decide) (.inr ⟨by simp, .inl ⟨⟨60, by decide⟩, rfl⟩⟩))
      (.hardware (as := false) (ins := []) (ok := true) (by decide) (by decide) (.inr ⟨by simp, .inl ⟨⟨60, by decide⟩, rfl⟩⟩))
    exact absurd this (by decide)
  · rintro t (rfl | rfl)
    · exact ⟨(expand exTarget 4 { dispatchers := [], items := [.sharedStruct 1 [], .localStruct 2 [], .init 3 [] true 1 2, .task 21 [.binds 60] false [] true] }).toOption.get (by decide +kernel), by decide +kernel⟩
    · exact ⟨(expand exTarget 4 { dispatchers := [], items := [.sharedStruct 1 [], .localStruct 2 [], .init 3 [] true 1 2, .task 20 [.binds 60] false [] true] }).toOption.get (by decide +kernel), by decide +kernel⟩

end Verif.Cfg
