import Verif.Analysis.Checks

/-! # Dispatcher assignment, decomposition of `expand`: lemmas -/

namespace Verif.Analysis

theorem length_le_of_subset {l1 l2 : List Nat} (hn : l1.Nodup) (hs : ∀ x ∈ l1, x ∈ l2) : l1.length ≤ l2.length := by
  induction l1 generalizing l2 with
  | nil => simp
  | cons a l ih =>
    rw [List.nodup_cons] at hn
    have ha := hs a List.mem_cons_self
    have := ih (l2 := l2.erase a) hn.2 (fun x hx => (List.mem_erase_of_ne (fun (e : x = a) => hn.1 (e ▸ hx))).mpr (hs x (List.mem_cons_of_mem _ hx)))
    rw [List.length_erase_of_mem ha] at this
    have := List.length_pos_of_mem ha
    simp; omega

theorem mem_setInsert {x y : Nat} {l : List Nat} : y ∈ setInsert x l ↔ y = x ∨ y ∈ l := by
  induction l with
  | nil => simp [setInsert]
  | cons a l ih =>
    unfold setInsert
    split
    · simp
    · split
      · rename_i h; subst h; simp
      · simp only [List.mem_cons, ih]
        constructor
        · rintro (h | h | h) <;> simp [h]
        · rintro (h | h | h) <;> simp [h]

theorem sorted_setInsert {x : Nat} {l : List Nat} (h : l.Pairwise (· < ·)) : (setInsert x l).Pairwise (· < ·) := by
  induction l with
  | nil => simp [setInsert]
  | cons a l ih =>
    rw [List.pairwise_cons] at h
    unfold setInsert
    split
    · rename_i hx
      rw [List.pairwise_cons]
      refine ⟨?_, List.pairwise_cons.mpr h⟩
      intro y hy
      rcases List.mem_cons.mp hy with rfl | hy
      · exact hx
      · have := h.1 y hy; omega
    · split
      · exact List.pairwise_cons.mpr h
      · rw [List.pairwise_cons]
        refine ⟨?_, ih h.2⟩
        intro y hy
        rcases mem_setInsert.mp hy with rfl | hy
        · omega
        · exact h.1 y hy

theorem mem_toSet {l : List Nat} {x : Nat} : x ∈ toSet l ↔ x ∈ l := by
  have := foldl_inv (f := fun s x => setInsert x s) (fun (l s : List Nat) => ∀ x, x ∈ s ↔ x ∈ l) (l := l) (pre := []) (b := []) (by
    intro l a b h x; simp only [mem_setInsert, h, List.mem_append, List.mem_singleton]; exact Or.comm) (by simp)
  exact this x

theorem sorted_toSet {l : List Nat} : (toSet l).Pairwise (· < ·) :=
  foldl_inv (f := fun s x => setInsert x s) (fun (_ s : List Nat) => s.Pairwise (· < ·)) (l := l) (pre := []) (b := []) (fun _ _ _ h => sorted_setInsert h) (by simp)

theorem nodup_toSet {l : List Nat} : (toSet l).Nodup := sorted_toSet.imp fun h e => Nat.ne_of_lt h e

theorem length_toSet_filter {l : List Nat} {q : Nat → Bool} : (toSet (l.filter q)).length = ((toSet l).filter q).length := by
  apply Nat.le_antisymm
  · apply length_le_of_subset nodup_toSet
    intro x; simp [mem_toSet]
  · apply length_le_of_subset (nodup_toSet.filter _)
    intro x; simp [mem_toSet]

theorem bmInsert_perm {k : Nat} {v : Ident} {m : List (Nat × Ident)} (h : k ∉ m.map Prod.fst) : (bmInsert k v m).Perm ((k, v) :: m) := by
  induction m with
  | nil => exact .refl _
  | cons x m ih =>
    obtain ⟨k', v'⟩ := x
    simp only [List.map_cons, List.mem_cons] at h
    unfold bmInsert
    split
    · exact .refl _
    · rw [if_neg (fun e => h (.inl e))]
      exact ((ih fun e => h (.inr e)).cons _).trans (.swap ..)

theorem bmFold_perm {l m : List (Nat × Ident)} (h : (l.map Prod.fst ++ m.map Prod.fst).Nodup) :
    (l.foldl (fun m kv => bmInsert kv.1 kv.2 m) m).Perm (l ++ m) := by
  induction l generalizing m with
  | nil => exact .refl _
  | cons x l ih =>
    rw [List.foldl_cons]
    rw [List.map_cons, List.cons_append, List.nodup_cons] at h
    have hx : x.1 ∉ m.map Prod.fst := fun e => h.1 (List.mem_append_right _ e)
    have hp := bmInsert_perm (v := x.2) hx
    refine (ih ?_).trans ?_
    · have : (l.map Prod.fst ++ (bmInsert x.1 x.2 m).map Prod.fst).Perm (x.1 :: (l.map Prod.fst ++ m.map Prod.fst)) := by
        refine ((hp.map Prod.fst).append_left _).trans ?_
        exact List.perm_middle
      rw [this.nodup_iff, List.nodup_cons]
      exact h
    · exact (hp.append_left _).trans List.perm_middle

theorem popAll_ok {ps : List Nat} {ds : List Ident} {l : List (Nat × Ident)} (h : popAll ps ds = .ok l) :
    l.map Prod.fst = ps ∧ (l.map Prod.snd).Sublist ds.reverse := by
  induction ps generalizing ds l with
  | nil => cases h; simp
  | cons p ps ih =>
    unfold popAll at h
    cases hd : ds.getLast? with
    | none => rw [hd] at h; cases h
    | some d =>
      rw [hd] at h
      obtain ⟨rest, hr, h⟩ := bind_ok h
      cases h
      obtain ⟨h1, h2⟩ := ih hr
      refine ⟨by simp [h1], ?_⟩
      have : ds.reverse = d :: ds.dropLast.reverse := by
        have hne : ds ≠ [] := by intro e; simp [e] at hd
        have := List.dropLast_concat_getLast hne
        rw [List.getLast?_eq_some_getLast hne] at hd
        cases hd
        conv => lhs; rw [← this]
        simp
      rw [this]
      exact h2.cons_cons _

theorem popAll_total {ps : List Nat} {ds : List Ident} (h : ps.length ≤ ds.length) : ∃ l, popAll ps ds = .ok l := by
  induction ps generalizing ds with
  | nil => exact ⟨[], rfl⟩
  | cons p ps ih =>
    have hne : ds ≠ [] := by intro e; simp [e] at h
    unfold popAll
    rw [List.getLast?_eq_some_getLast hne]
    simp only
    obtain ⟨l, hl⟩ := ih (ds := ds.dropLast) (by simp at h ⊢; omega)
    rw [hl]
    exact ⟨_, rfl⟩

/-- The dispatcher table. -/
structure DispInv (app : App) (m : List (Nat × Ident)) : Prop where
  keys : ∀ p, (∃ v, (p, v) ∈ m) ↔ 0 < p ∧ ∃ nt ∈ app.sw, nt.2.priority = p
  nodupK : (m.map Prod.fst).Nodup
  nodupV : (m.map Prod.snd).Nodup
  sub : ∀ p v, (p, v) ∈ m → v ∈ app.dispatchers

theorem fullAnalyze_ok {base : Analysis} {app : App} {an : FullAnalysis} (hd : app.dispatchers.Nodup) (h : fullAnalyze base app = .ok an) :
    an.base = base ∧ DispInv app an.interrupts ∧ ((toSet (app.sw.map fun nt => nt.2.priority)).filter (0 < ·)).length ≤ app.dispatchers.length := by
  unfold fullAnalyze at h
  simp only at h
  split at h
  · cases h
  · rename_i hlen
    obtain ⟨pairs, hp, h⟩ := bind_ok h
    have han : an.base = base ∧ an.interrupts = pairs.foldl (fun m kv => bmInsert kv.1 kv.2 m) [] := by
      split at h
      · cases h; exact ⟨rfl, rfl⟩
      · cases h
      · cases h; exact ⟨rfl, rfl⟩
    obtain ⟨k1, k2⟩ := popAll_ok hp
    have hnk : (pairs.map Prod.fst).Nodup := by
      rw [k1, (List.reverse_perm _).nodup_iff]; exact nodup_toSet.filter _
    have hperm : an.interrupts.Perm pairs := by
      rw [han.2]
      have := bmFold_perm (l := pairs) (m := []) (by simpa using hnk)
      simpa using this
    refine ⟨han.1, ?_, by omega⟩
    constructor
    · intro p
      have : (∃ v, (p, v) ∈ an.interrupts) ↔ p ∈ pairs.map Prod.fst := by
        simp only [hperm.mem_iff, List.mem_map]
        constructor
        · rintro ⟨v, hv⟩; exact ⟨_, hv, rfl⟩
        · rintro ⟨x, hx, rfl⟩; exact ⟨x.2, hx⟩
      rw [this, k1]
      simp only [List.mem_reverse, List.mem_filter, mem_toSet, List.mem_map, decide_eq_true_eq]
      exact And.comm
    · exact (hperm.map _).nodup_iff.mpr hnk
    · exact (hperm.map _).nodup_iff.mpr (k2.nodup ((List.reverse_perm _).nodup_iff.mpr hd))
    · intro p v hv
      have : v ∈ pairs.map Prod.snd := List.mem_map.mpr ⟨_, hperm.mem_iff.mp hv, rfl⟩
      simpa using k2.subset this

/-- what a successful expansion went through -/
structure Expanded (tg : Target) (bits : Nat) (raw : Raw) (p : Program) (app : App) (base : Analysis) (an : FullAnalysis) : Prop where
  parse : parse raw = .ok app
  says : Says raw app
  check : check app = .ok ()
  analyze : analyze app = .ok base
  noErrors : analyzeErrors app = []
  arch : archCheck tg app = .ok ()
  full : fullAnalyze base app = .ok an
  anBase : an.base = base
  disp : DispInv app an.interrupts
  codegen : codegen tg app an = .ok p
  fits : fits bits app an = true

theorem expand_ok {tg : Target} {bits : Nat} {raw : Raw} {p : Program} (h : expand tg bits raw = .ok p) : ∃ app base an, Expanded tg bits raw p app base an := by
  unfold expand at h
  obtain ⟨app, h1, h⟩ := bind_ok h
  obtain ⟨⟨⟩, h2, h⟩ := bind_ok h
  obtain ⟨base, h3, h⟩ := bind_ok h
  obtain ⟨⟨⟩, h4, h⟩ := bind_ok h
  obtain ⟨an, h5, h⟩ := bind_ok h
  obtain ⟨p', h6, h⟩ := bind_ok h
  split at h
  · cases h
    have hs := says_of_parse h1
    obtain ⟨f1, f2, -⟩ := fullAnalyze_ok hs.nodupD h5
    refine ⟨app, base, an, h1, hs, h2, h3, ?_, h4, h5, f1, f2, h6, by assumption⟩
    rcases analyze_cases h2 with ⟨-, he⟩ | ⟨he, -⟩
    · rw [h3] at he; cases he
    · exact he
  · cases h

theorem check_ok {app : App} (h : check app = .ok ()) :
    (∀ x ∈ sharedAccesses app, has app.sharedRes x.2.1 = true) ∧ (∀ r ∈ localAccesses app, has app.localRes r = true) ∧
    (∀ x ∈ sharedAccesses app, ∀ y ∈ sharedAccesses app, x.2.1 = y.2.1 → x.2.2 = y.2.2) ∧ ∀ nt ∈ app.hw, nt.2.binds ∉ app.dispatchers := by
  unfold check at h
  obtain ⟨⟨⟩, h1, h⟩ := bind_ok h
  obtain ⟨⟨⟩, h2, h⟩ := bind_ok h
  obtain ⟨⟨⟩, h3, h⟩ := bind_ok h
  refine ⟨?_, ?_, ?_, ?_⟩
  · intro x hx
    have := forM_ok.mp h1 x hx
    split at this
    · assumption
    · cases this
  · intro x hx
    have := forM_ok.mp h2 x hx
    split at this
    · assumption
    · cases this
  · have key : ∀ x ∈ sharedAccesses app, ∀ y ∈ sharedAccesses app, x.2.1 = y.2.1 → x.2.2 = .shared → y.2.2 = .exclusive → False := by
      intro x hx y hy he ha hb
      have := forM_ok.mp h3 x hx
      rw [if_pos] at this
      · cases this
      · refine ⟨ha, List.mem_filterMap.mpr ⟨y, hy, ?_⟩⟩
        rw [if_pos hb, he]
    intro x hx y hy he
    cases ha : x.2.2 <;> cases hb : y.2.2 <;> try rfl
    · exact (key y hy x hx he.symm hb ha).elim
    · exact (key x hx y hy he ha hb).elim
  · intro x hx
    have := forM_ok.mp h x hx
    split at this
    · cases this
    · assumption

theorem mem_localAccesses {app : App} {r : Ident} : r ∈ localAccesses app ↔ (r, .external) ∈ app.init.locals ∨ ∃ t p, AppLocal app t p r .external := by
  have hex : ∀ {m : Map TaskLocal}, r ∈ externals m ↔ (r, .external) ∈ m := by
    intro m; unfold externals
    simp only [List.mem_map, List.mem_filter, decide_eq_true_eq]
    constructor
    · rintro ⟨kv, ⟨h1, h2⟩, rfl⟩; rw [← h2]; exact h1
    · intro h; exact ⟨_, ⟨h, rfl⟩, rfl⟩
  unfold localAccesses AppLocal
  simp only [List.mem_append, List.mem_flatMap, Option.mem_toList, hex]
  constructor
  · rintro (((h | ⟨i, hi, h⟩) | ⟨nt, hi, h⟩) | ⟨nt, hi, h⟩)
    · exact .inl h
    · exact .inr ⟨_, _, .inl ⟨i, hi, rfl, rfl, h⟩⟩
    · exact .inr ⟨_, _, .inr (.inl ⟨nt.2, hi, rfl, h⟩)⟩
    · exact .inr ⟨_, _, .inr (.inr ⟨nt.2, hi, rfl, h⟩)⟩
  · rintro (h | ⟨t, p, ⟨i, hi, rfl, rfl, h⟩ | ⟨h', hi, rfl, h⟩ | ⟨h', hi, rfl, h⟩⟩)
    · exact .inl (.inl (.inl h))
    · exact .inl (.inl (.inr ⟨i, hi, h⟩))
    · exact .inl (.inr ⟨_, hi, h⟩)
    · exact .inr ⟨_, hi, h⟩

/-- shape of the result of `analyze` -/
theorem analyze_ok {app : App} {an : Analysis} (h : analyze app = .ok an) : ∃ s own, OwnInv app (sharedAccesses app) s ∧ own = (allLocals app).foldl ownLocal s.ownerships ∧
    an.usedShared = s.used ∧ an.usedLocal = ((allLocals app).map fun l => l.2.1) ∧ an.ownerships = own ∧ an.syncTypes = s.syncTypes ∧
    an.sendTypes = ((app.sharedRes.filter fun kv => needsSend own kv.1).map fun kv => kv.2.ty) ++ ((app.localRes.filter fun kv => needsSend own kv.1).map fun kv => kv.2) ++
      ((app.sw.filter fun nt => !nt.2.localTask).flatMap fun nt => nt.2.inputs) := by
  unfold analyze at h
  simp only at h
  split at h
  · cases h
  · obtain ⟨s, hs, h⟩ := bind_ok h
    cases h
    exact ⟨s, _, own_fold hs, rfl, rfl, rfl, rfl, rfl, rfl⟩

theorem vectorFor_ok {an : FullAnalysis} {prio : Nat} {o : Option Ident} (h : vectorFor an prio = .ok o) :
    (prio = 0 ∧ o = none) ∨ (0 < prio ∧ ∃ v, o = some v ∧ (prio, v) ∈ an.interrupts) := by
  unfold vectorFor at h
  split at h
  · split at h
    · cases h
    · rename_i d hl
      cases h
      exact .inr ⟨by assumption, d, rfl, get?_some_mem (α := Ident) hl⟩
  · cases h; exact .inl ⟨by omega, rfl⟩

theorem vectorFor_total {app : App} {an : FullAnalysis} (hd : DispInv app an.interrupts) {prio : Nat} (h : ∃ nt ∈ app.sw, nt.2.priority = prio) :
    ∃ o, vectorFor an prio = .ok o := by
  unfold vectorFor
  split
  · rename_i hp
    obtain ⟨v, hv⟩ := (hd.keys prio).mpr ⟨hp, h⟩
    have : an.interrupts.lookup prio = some v := get?_of_mem (α := Ident) hd.nodupK hv
    rw [this]; exact ⟨_, rfl⟩
  · exact ⟨_, rfl⟩

theorem maxAsync_ok {app : App} {base : Analysis} {an : FullAnalysis} (h : fullAnalyze base app = .ok an) : an.maxAsyncPrio = (app.hw.map fun nt => nt.2.priority).min?.map (· - 1) := by
  unfold fullAnalyze at h
  simp only at h
  split at h
  · cases h
  · obtain ⟨pairs, -, h⟩ := bind_ok h
    split at h
    · next hm => cases h; rw [hm]; rfl
    · cases h
    · next v hm => cases h; rw [hm]; rfl

/-- shape of the generated program -/
structure Generated (tg : Target) (app : App) (an : FullAnalysis) (p : Program) : Prop where
  contexts : contexts app = .ok p.contexts
  mutexes : p.mutexes = (app.sharedRes.filter fun kv => !kv.2.lockFree).map fun kv => (kv.1, ceilingOf an.base kv.1)
  hw : p.hwHandlers = app.hw.map fun nt => (nt.2.binds, nt.2.priority, nt.1)
  disp : ((toSet (app.sw.map fun nt => nt.2.priority)).mapM fun level => do
    let v ← vectorFor an level
    pure (v, level, channelTasks app level)) = .ok p.dispatchers
  pends : (app.sw.mapM fun nt => do let v ← vectorFor an nt.2.priority; pure (nt.1, v)) = .ok p.pends
  localSpawn : p.localSpawn = app.sw.flatMap fun nt => (app.sw.filter fun mt => mt.2.localTask && decide (mt.2.priority = nt.2.priority)).map fun mt => (nt.1, mt.1)
  freeSpawn : p.freeSpawn = (app.sw.filter fun nt => !nt.2.localTask).map Prod.fst
  send : p.sendAsserts = an.base.sendTypes
  sync : p.syncAsserts = an.base.syncTypes
  asyncMax : p.asyncMax = an.maxAsyncPrio
  main : p.main = mainStmts tg app an

theorem codegen_ok {tg : Target} {app : App} {an : FullAnalysis} {p : Program} (h : codegen tg app an = .ok p) : Generated tg app an p := by
  unfold codegen at h
  obtain ⟨c, h1, h⟩ := bind_ok h
  obtain ⟨d, h2, h⟩ := bind_ok h
  obtain ⟨e, h3, h⟩ := bind_ok h
  cases h
  exact ⟨h1, rfl, rfl, h2, h3, rfl, rfl, rfl, rfl, rfl, rfl⟩

theorem mem_dispatchers {tg : Target} {app : App} {an : FullAnalysis} {p : Program} (hg : Generated tg app an p)
    {o : Option Ident} {prio : Nat} {ts : List Ident} : (o, prio, ts) ∈ p.dispatchers ↔
    (∃ nt ∈ app.sw, nt.2.priority = prio) ∧ ts = channelTasks app prio ∧ vectorFor an prio = .ok o := by
  have := (mapM_ok hg.disp).1 (o, prio, ts)
  rw [this]
  simp only [mem_toSet, List.mem_map]
  constructor
  · rintro ⟨l, hl, h⟩
    obtain ⟨v, hv, h⟩ := bind_ok h
    cases h
    exact ⟨hl, rfl, hv⟩
  · rintro ⟨hl, rfl, hv⟩
    refine ⟨prio, hl, ?_⟩
    rw [hv]; rfl

theorem mem_pends {tg : Target} {app : App} {an : FullAnalysis} {p : Program} (hg : Generated tg app an p) {t : Ident} {o : Option Ident} :
    (t, o) ∈ p.pends ↔ ∃ st, (t, st) ∈ app.sw ∧ vectorFor an st.priority = .ok o := by
  have := (mapM_ok hg.pends).1 (t, o)
  rw [this]
  constructor
  · rintro ⟨nt, hl, h⟩
    obtain ⟨v, hv, h⟩ := bind_ok h
    cases h
    exact ⟨nt.2, hl, hv⟩
  · rintro ⟨st, hl, hv⟩
    refine ⟨_, hl, ?_⟩
    simp only [hv]; rfl

theorem mem_channelTasks {app : App} {t : Ident} {prio : Nat} : t ∈ channelTasks app prio ↔ ∃ st, (t, st) ∈ app.sw ∧ st.priority = prio := by
  unfold channelTasks; simp

/-! ## contexts -/

theorem sharedHandles_ok {app : App} {m : Map Access} {l : List (Ident × Handle)} (h : sharedHandles app m = .ok l) {r : Ident} {hd : Handle} :
    (r, hd) ∈ l ↔ ∃ a res, (r, a) ∈ m ∧ get? app.sharedRes r = some res ∧ hd = handleOf res a := by
  unfold sharedHandles at h
  rw [(mapM_ok h).1]
  constructor
  · rintro ⟨ra, hra, h⟩
    split at h
    · cases h
    · cases h; exact ⟨_, _, hra, by assumption, rfl⟩
  · rintro ⟨a, res, hra, hres, rfl⟩
    refine ⟨_, hra, ?_⟩
    simp only [hres]

theorem localHandles_ok {app : App} {m : Map TaskLocal} {l : List (Ident × Bool)} (h : localHandles app m = .ok l) {r : Ident} {b : Bool} :
    (r, b) ∈ l ↔ ∃ k, (r, k) ∈ m ∧ (b = true ↔ k = .external) := by
  unfold localHandles at h
  rw [(mapM_ok h).1]
  constructor
  · rintro ⟨ra, hra, h⟩
    split at h
    · rename_i hk
      split at h
      · cases h; exact ⟨_, hra, by simp [hk]⟩
      · cases h
    · rename_i hk
      cases h; exact ⟨_, hra, by simp [hk]⟩
  · rintro ⟨k, hra, hb⟩
    obtain ⟨b', hb'⟩ := (mapM_ok h).2 _ hra
    refine ⟨_, hra, ?_⟩
    cases k with
    | external =>
      have : b = true := hb.mpr rfl
      subst this
      simp only at hb' ⊢
      split
      · rfl
      · rename_i hh; rw [if_neg hh] at hb'; cases hb'
    | declared ty =>
      have : b = false := by cases b <;> simp_all
      subst this; rfl

theorem context_ok {app : App} {t : Ident} {prio : Nat} {as : Bool} {sh : Map Access} {lo : Map TaskLocal} {c : Context} (h : context app t prio as sh lo = .ok c) :
    c.task = t ∧ c.priority = prio ∧ c.isAsync = as ∧ sharedHandles app sh = .ok c.shared ∧ localHandles app lo = .ok c.locals := by
  unfold context at h
  obtain ⟨s, h1, h⟩ := bind_ok h
  obtain ⟨l, h2, h⟩ := bind_ok h
  cases h
  exact ⟨rfl, rfl, rfl, h1, h2⟩

/-- every context belongs to a function of the application, and the other way round -/
theorem mem_contexts {app : App} {cs : List Context} (h : contexts app = .ok cs) :
    (∀ c ∈ cs, (∃ i, app.idle = some i ∧ context app i.name 0 false i.shared i.locals = .ok c) ∨
      (∃ n t, (n, t) ∈ app.hw ∧ context app n t.priority false t.shared t.locals = .ok c) ∨
      (∃ n t, (n, t) ∈ app.sw ∧ context app n t.priority true t.shared t.locals = .ok c)) ∧
    (∀ i, app.idle = some i → ∃ c ∈ cs, context app i.name 0 false i.shared i.locals = .ok c) ∧
    (∀ n t, (n, t) ∈ app.hw → ∃ c ∈ cs, context app n t.priority false t.shared t.locals = .ok c) ∧
    (∀ n t, (n, t) ∈ app.sw → ∃ c ∈ cs, context app n t.priority true t.shared t.locals = .ok c) := by
  unfold contexts at h
  obtain ⟨ci, h1, h⟩ := bind_ok h
  obtain ⟨ch, h2, h⟩ := bind_ok h
  obtain ⟨cw, h3, h⟩ := bind_ok h
  cases h
  obtain ⟨a2, b2⟩ := mapM_ok h2
  obtain ⟨a3, b3⟩ := mapM_ok h3
  have a1 : ∀ c, c ∈ ci ↔ ∃ i, app.idle = some i ∧ context app i.name 0 false i.shared i.locals = .ok c := by
    intro c
    unfold optCtx at h1
    split at h1
    · cases h1; simp_all
    · rename_i i hi
      obtain ⟨c', hc', h1⟩ := bind_ok h1
      cases h1
      simp only [List.mem_singleton, hi, Option.some.injEq]
      constructor
      · rintro rfl; exact ⟨i, rfl, hc'⟩
      · rintro ⟨i', rfl, h⟩; rw [hc'] at h; cases h; rfl
  have b1 : ∀ i, app.idle = some i → ∃ c, context app i.name 0 false i.shared i.locals = .ok c := by
    intro i hi
    unfold optCtx at h1
    rw [hi] at h1
    obtain ⟨c', hc', h1⟩ := bind_ok h1
    exact ⟨c', hc'⟩
  refine ⟨?_, ?_, ?_, ?_⟩
  · intro c hc
    simp only [List.mem_append, a1, a2, a3] at hc
    rcases hc with (h | ⟨nt, h, h'⟩) | ⟨nt, h, h'⟩
    · exact .inl h
    · exact .inr (.inl ⟨_, _, h, h'⟩)
    · exact .inr (.inr ⟨_, _, h, h'⟩)
  · intro i hi
    obtain ⟨c, hc⟩ := b1 i hi
    exact ⟨c, by simp only [List.mem_append]; exact .inl (.inl ((a1 c).mpr ⟨i, hi, hc⟩)), hc⟩
  · intro n t hm
    obtain ⟨c, hc⟩ := b2 _ hm
    exact ⟨c, by simp only [List.mem_append]; exact .inl (.inr ((a2 c).mpr ⟨_, hm, hc⟩)), hc⟩
  · intro n t hm
    obtain ⟨c, hc⟩ := b3 _ hm
    exact ⟨c, by simp only [List.mem_append]; exact .inr ((a3 c).mpr ⟨_, hm, hc⟩), hc⟩

/-! ## no internal error -/

def NotBug (f : Fail) : Prop := f ≠ .bug

theorem plain_notBug {f : Fail} (h : PlainFail f) : NotBug f := by
  rcases h with rfl | ⟨e, rfl, -⟩ <;> intro h <;> cases h

theorem Fails.mono {α : Type} {P Q : Fail → Prop} (hpq : ∀ f, P f → Q f) {x : Res α} (h : Fails P x) : Fails Q x := fun f hf => hpq f (h f hf)

theorem sharedHandles_total {app : App} {m : Map Access} (h : ∀ ra ∈ m, has app.sharedRes ra.1 = true) : ∃ l, sharedHandles app m = .ok l := by
  refine mapM_exists fun ra hra => ?_
  obtain ⟨res, hres⟩ := Option.isSome_iff_exists.mp (h ra hra)
  rw [hres]; exact ⟨_, rfl⟩

theorem localHandles_total {app : App} {m : Map TaskLocal} (h : ∀ r, (r, .external) ∈ m → has app.localRes r = true) : ∃ l, localHandles app m = .ok l := by
  refine mapM_exists fun rk hrk => ?_
  split
  · rename_i hk
    rw [if_pos (h rk.1 (hk ▸ hrk))]; exact ⟨_, rfl⟩
  · exact ⟨_, rfl⟩

theorem context_total {app : App} {t : Ident} {prio : Nat} {as : Bool} {sh : Map Access} {lo : Map TaskLocal} (h1 : ∀ ra ∈ sh, has app.sharedRes ra.1 = true)
    (h2 : ∀ r, (r, .external) ∈ lo → has app.localRes r = true) : ∃ c, context app t prio as sh lo = .ok c := by
  obtain ⟨s, hs⟩ := sharedHandles_total h1
  obtain ⟨l, hl⟩ := localHandles_total h2
  unfold context
  rw [hs, hl]; exact ⟨_, rfl⟩

theorem contexts_total {app : App} (hc : check app = .ok ()) : ∃ cs, contexts app = .ok cs := by
  obtain ⟨c1, c2, -⟩ := check_ok hc
  have s1 : ∀ {t p r a}, AppShared app t p r a → has app.sharedRes r = true := fun h => c1 _ (mem_sharedAccesses.mpr ⟨_, h⟩)
  have s2 : ∀ {t p r}, AppLocal app t p r .external → has app.localRes r = true := fun h => c2 _ (mem_localAccesses.mpr (.inr ⟨_, _, h⟩))
  have hi : ∃ l, optCtx app app.idle = .ok l := by
    cases hid : app.idle with
    | none => exact ⟨_, rfl⟩
    | some i =>
      obtain ⟨c, hc⟩ := context_total (app := app) (t := i.name) (prio := 0) (as := false) (sh := i.shared) (lo := i.locals)
        (fun ra hra => s1 (.inl ⟨i, hid, rfl, rfl, hra⟩)) (fun r hr => s2 (.inl ⟨i, hid, rfl, rfl, hr⟩))
      refine ⟨[c], ?_⟩
      simp only [optCtx, hc]; rfl
  obtain ⟨l1, h1⟩ := hi
  obtain ⟨l2, h2⟩ : ∃ l, (app.hw.mapM fun nt => context app nt.1 nt.2.priority false nt.2.shared nt.2.locals) = .ok l :=
    mapM_exists fun nt hnt => context_total (fun ra hra => s1 (.inr (.inl ⟨nt.2, hnt, rfl, hra⟩))) (fun r hr => s2 (.inr (.inl ⟨nt.2, hnt, rfl, hr⟩)))
  obtain ⟨l3, h3⟩ : ∃ l, (app.sw.mapM fun nt => context app nt.1 nt.2.priority true nt.2.shared nt.2.locals) = .ok l :=
    mapM_exists fun nt hnt => context_total (fun ra hra => s1 (.inr (.inr ⟨nt.2, hnt, rfl, hra⟩))) (fun r hr => s2 (.inr (.inr ⟨nt.2, hnt, rfl, hr⟩)))
  unfold contexts
  rw [h1, h2, h3]; exact ⟨_, rfl⟩

theorem archCheck_ok {tg : Target} {app : App} (h : archCheck tg app = .ok ()) :
    (∀ d ∈ app.dispatchers, tg.isException d = false ∧ tg.isFixed d = false) ∧
    ((toSet (app.sw.map fun nt => nt.2.priority)).filter (0 < ·)).length ≤ app.dispatchers.length ∧ ∀ nt ∈ app.hw, tg.isFixed nt.2.binds = false := by
  unfold archCheck at h
  obtain ⟨⟨⟩, h1, h⟩ := bind_ok h
  simp only at h
  split at h
  · cases h
  · rename_i hlen
    obtain ⟨⟨⟩, -, h⟩ := bind_ok h
    refine ⟨?_, ?_, ?_⟩
    · intro d hd
      have := forM_ok.mp h1 d hd
      split at this
      · cases this
      · rename_i hh; simpa using hh
    · rw [← length_toSet_filter]; omega
    · intro nt hnt
      have := forM_ok.mp h nt hnt
      split at this
      · cases this
      · rename_i hh; simpa using hh

theorem expand_notBug (tg : Target) (bits : Nat) (raw : Raw) : Fails NotBug (expand tg bits raw) := by
  unfold expand
  refine fails_bind ((plain_parse raw).mono fun _ => plain_notBug) fun app ha => ?_
  have hs := says_of_parse ha
  refine fails_bind ((plain_check app).mono fun _ => plain_notBug) fun ⟨⟩ hc => ?_
  refine fails_bind ?_ fun base hb => ?_
  · rcases analyze_cases hc with ⟨-, he⟩ | ⟨-, an, he⟩
    · rw [he]; exact fails_error (by intro h; cases h)
    · rw [he]; exact fails_ok _
  refine fails_bind ((plain_archCheck tg app).mono fun _ => plain_notBug) fun ⟨⟩ hcheck => ?_
  refine fails_bind ?_ fun an han => ?_
  · unfold fullAnalyze
    simp only
    have hlen := (archCheck_ok hcheck).2.1
    rw [if_neg (by omega)]
    refine fails_bind ?_ fun pairs _ => ?_
    · obtain ⟨l, hl⟩ := popAll_total (ps := ((toSet (app.sw.map fun nt => nt.2.priority)).filter (0 < ·)).reverse) (ds := app.dispatchers) (by simpa using hlen)
      rw [hl]; exact fails_ok _
    · split
      · exact fails_pure _
      · rename_i hmin
        have := List.min?_mem hmin
        obtain ⟨nt, hnt, h0⟩ := List.mem_map.mp this
        have := (hs.hwPrio nt.1 nt.2 hnt).1
        omega
      · exact fails_pure _
  obtain ⟨-, hd, -⟩ := fullAnalyze_ok hs.nodupD han
  refine fails_bind ?_ fun p _ => fails_ite (fun _ => fails_pure _) fun _ => fails_err (by intro h; cases h)
  unfold codegen
  obtain ⟨cs, hcs⟩ := contexts_total hc
  rw [hcs]
  refine fails_bind (fails_ok _) fun _ _ => fails_bind (fails_mapM fun level hl => ?_) fun _ _ => fails_bind (fails_mapM fun nt hnt => ?_) fun _ _ => fails_pure _
  · obtain ⟨o, ho⟩ := vectorFor_total hd (by simpa [mem_toSet] using hl : ∃ nt ∈ app.sw, nt.2.priority = level)
    rw [ho]; exact fails_bind (fails_ok _) fun _ _ => fails_pure _
  · obtain ⟨o, ho⟩ := vectorFor_total hd ⟨nt, hnt, rfl⟩
    rw [ho]; exact fails_bind (fails_ok _) fun _ _ => fails_pure _

end Verif.Analysis
