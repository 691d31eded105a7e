import Verif.Escape.Lemmas
import Verif.Signature.Props
import Verif.Analysis.Props

/-! # The functions of an accepted application -/

namespace Verif.Escape
open Verif.Analysis
open Verif.Signature (Def SItem Fn FItem)

/-- rules the application follows, on the parsed application -/
structure Facts (app : App) : Prop where
  mixed : ∀ t p r a t' p' a', AppShared app t p r a → AppShared app t' p' r a' → a = a'
  lockFree : ∀ r res, get? app.sharedRes r = some res → res.lockFree = true →
    (∀ t p a t' p' a', AppShared app t p r a → AppShared app t' p' r a' → p = p') ∧ ∀ t p a st, AppShared app t p r a → (t, st) ∉ app.sw
  locals : ∀ r t p t' p', AppLocal app t p r .external → AppLocal app t' p' r .external → t = t'

theorem facts {tg : Target} {bits : Nat} {raw : Raw} {p : Program} {app : App} (h : expand tg bits raw = .ok p) (hp : parse raw = .ok app) : Facts app ∧ Says raw app := by
  obtain ⟨app', base, an, he⟩ := expand_ok h
  have e : app' = app := by have := he.parse; rw [hp] at this; cases this; rfl
  subst e
  have hs := he.says
  obtain ⟨-, c2, c3, -⟩ := check_ok he.check
  refine ⟨⟨?_, ?_, ?_⟩, hs⟩
  · intro t p r a t' p' a' h1 h2
    exact c3 _ (mem_sharedAccesses.mpr ⟨t, h1⟩) _ (mem_sharedAccesses.mpr ⟨t', h2⟩) rfl
  · intro r res hr hlf
    obtain ⟨h1, h2⟩ := C41_lock_free_single_priority h ((hs.sharedRes r res).mp (get?_some_mem hr)) hlf
    refine ⟨fun t p a t' p' a' u u' => h1 _ _ _ _ _ _ (hs.uses.mpr u) (hs.uses.mpr u'), ?_⟩
    intro t p a st u hsw
    obtain ⟨args, ht, -⟩ := hs.sw t st hsw
    have hu : p = st.priority := by
      rcases u with ⟨i, e1, e2, -⟩ | ⟨i, e1, e2, -⟩ | ⟨i, e1, e2, -⟩
      · subst e2; exact absurd hsw (hs.idleSw i st e1)
      · exact absurd hsw (hs.hwSw t i st e1)
      · have e3 := get?_of_mem hs.nodupSw e1
        rw [get?_of_mem hs.nodupSw hsw] at e3
        cases e3; exact e2
    subst hu
    exact h2 _ _ _ _ ht (hs.uses.mpr u)
  · intro r t p t' p' h1 h2
    obtain ⟨ty, hty⟩ := has_iff.mp (c2 r (mem_localAccesses.mpr (.inr ⟨t, p, h1⟩)))
    exact (C42_local_exclusive h ((hs.localRes r ty).mp hty)).1 t p t' p' (hs.usesLocal.mpr h1) (hs.usesLocal.mpr h2)

/-- where a function comes from -/
structure Src (app : App) (f : Frame) (sh : Map Access) (lo : Map TaskLocal) : Prop where
  refs : f.refs = localRefs f.kind f.ctx f.name lo ++ sh.filterMap (sharedRef app f.kind f.ctx)
  proxies : f.proxies = sh.filterMap (proxy app)
  shared : ∀ r a, (r, a) ∈ sh → AppShared app f.name f.prio r a
  locals : ∀ r, (r, .external) ∈ lo → AppLocal app f.name f.prio r .external
  nodupS : (sh.map Prod.fst).Nodup
  nodupL : (lo.map Prod.fst).Nodup
  kind : match f.kind with
    | .init => f.name = app.init.name ∧ sh = [] ∧ f.ctx = false
    | .idle => (∃ i, app.idle = some i ∧ f.name = i.name) ∧ f.prio = 0 ∧ f.ctx = false
    | .hardware => (∃ t, (f.name, t) ∈ app.hw) ∧ 1 ≤ f.prio ∧ f.ctx = false
    | .software => ∃ t, (f.name, t) ∈ app.sw

theorem src {raw : Raw} {app : App} {defs : List Def} {out : Ident → Output} (hs : Says raw app) {f : Frame} (hf : f ∈ frames app defs out) : ∃ sh lo, Src app f sh lo := by
  unfold frames at hf
  simp only [List.mem_append, List.mem_singleton, List.mem_map] at hf
  rcases hf with ((rfl | hf) | ⟨⟨n, t⟩, hm, rfl⟩) | ⟨⟨n, t⟩, hm, rfl⟩
  · exact ⟨[], app.init.locals, rfl, rfl, by simp, fun r h => absurd h (hs.initDecl r), by simp, hs.initNodup, rfl, rfl, rfl⟩
  · split at hf
    · next i hi =>
      cases List.mem_singleton.mp hf
      obtain ⟨n1, n2⟩ := hs.listsNodupIdle i hi
      exact ⟨i.shared, i.locals, rfl, rfl, fun r a h => .inl ⟨i, hi, rfl, rfl, h⟩, fun r h => .inl ⟨i, hi, rfl, rfl, h⟩, n1, n2, ⟨i, hi, rfl⟩, rfl, rfl⟩
    · cases hf
  · obtain ⟨n1, n2⟩ := hs.listsNodupHw n t hm
    exact ⟨t.shared, t.locals, rfl, rfl, fun r a h => .inr (.inl ⟨t, hm, rfl, h⟩), fun r h => .inr (.inl ⟨t, hm, rfl, h⟩), n1, n2, ⟨t, hm⟩, (hs.hwPrio n t hm).1, rfl⟩
  · obtain ⟨n1, n2⟩ := hs.listsNodup n t hm
    exact ⟨t.shared, t.locals, rfl, rfl, fun r a h => .inr (.inr ⟨t, hm, rfl, h⟩), fun r h => .inr (.inr ⟨t, hm, rfl, h⟩), n1, n2, ⟨t, hm⟩⟩

theorem names_unique {raw : Raw} {app : App} {defs : List Def} {out : Ident → Output} (hs : Says raw app) {f g : Frame} (hf : f ∈ frames app defs out) (hg : g ∈ frames app defs out)
    (e : f.name = g.name) : f = g := by
  unfold frames at hf hg
  simp only [List.mem_append, List.mem_singleton, List.mem_map] at hf hg
  have idle : ∀ {x : Frame}, (x ∈ match app.idle with | some i => [frame app .idle 0 false false i.name i.shared i.locals] | none => []) →
      ∃ i, app.idle = some i ∧ x = frame app .idle 0 false false i.name i.shared i.locals := by
    intro x hx
    split at hx
    · next i hi => exact ⟨i, hi, List.mem_singleton.mp hx⟩
    · cases hx
  rcases hf with ((rfl | hf) | ⟨⟨n, t⟩, hm, rfl⟩) | ⟨⟨n, t⟩, hm, rfl⟩
  · rcases hg with ((rfl | hg) | ⟨⟨n', t'⟩, hm', rfl⟩) | ⟨⟨n', t'⟩, hm', rfl⟩
    · rfl
    · obtain ⟨i, hi, rfl⟩ := idle hg
      exact absurd (Eq.symm e) (hs.initIdle i hi)
    · simp only [frame] at e; subst e; exact absurd hm' (hs.initHw t')
    · simp only [frame] at e; subst e; exact absurd hm' (hs.initSw t')
  · obtain ⟨j, hj, rfl⟩ := idle hf
    rcases hg with ((rfl | hg) | ⟨⟨n', t'⟩, hm', rfl⟩) | ⟨⟨n', t'⟩, hm', rfl⟩
    · exact absurd e (hs.initIdle j hj)
    · obtain ⟨i, hi, rfl⟩ := idle hg
      rw [hj] at hi; cases hi; rfl
    · simp only [frame] at e; subst e; exact absurd hm' (hs.idleHw j t' hj)
    · simp only [frame] at e; subst e; exact absurd hm' (hs.idleSw j t' hj)
  · rcases hg with ((rfl | hg) | ⟨⟨n', t'⟩, hm', rfl⟩) | ⟨⟨n', t'⟩, hm', rfl⟩
    · simp only [frame] at e; subst e; exact absurd hm (hs.initHw t)
    · obtain ⟨i, hi, rfl⟩ := idle hg
      simp only [frame] at e; subst e; exact absurd hm (hs.idleHw i t hi)
    · simp only [frame] at e; subst e
      have e3 := get?_of_mem hs.nodupHw hm
      rw [get?_of_mem hs.nodupHw hm'] at e3
      cases e3; rfl
    · simp only [frame] at e; subst e; exact absurd hm' (hs.hwSw n t t' hm)
  · rcases hg with ((rfl | hg) | ⟨⟨n', t'⟩, hm', rfl⟩) | ⟨⟨n', t'⟩, hm', rfl⟩
    · simp only [frame] at e; subst e; exact absurd hm (hs.initSw t)
    · obtain ⟨i, hi, rfl⟩ := idle hg
      simp only [frame] at e; subst e; exact absurd hm (hs.idleSw i t hi)
    · simp only [frame] at e; subst e; exact absurd hm (hs.hwSw n t' t hm')
    · simp only [frame] at e; subst e
      have e3 := get?_of_mem hs.nodupSw hm
      rw [get?_of_mem hs.nodupSw hm'] at e3
      cases e3; rfl

theorem mem_localRefs {k : Kind} {ctx : Bool} {n : Ident} {m : Map TaskLocal} {r : Ref} (h : r ∈ localRefs k ctx n m) :
    r.excl = true ∧ r.static = (k.runsOnce || ctx) ∧ ((∃ x, (x, .external) ∈ m ∧ r.place = .localRes x) ∨ ∃ x ty, (x, .declared ty) ∈ m ∧ r.place = .declared n x) := by
  obtain ⟨⟨x, tl⟩, hx, rfl⟩ := List.mem_map.mp h
  refine ⟨rfl, rfl, ?_⟩
  cases tl with
  | external => exact .inl ⟨x, hx, rfl⟩
  | declared ty => exact .inr ⟨x, ty, hx, rfl⟩

theorem sharedRef_some {app : App} {k : Kind} {ctx : Bool} {x : Ident} {a : Access} {r : Ref} (h : sharedRef app k ctx (x, a) = some r) :
    r.place = .shared x ∧ ∃ res, get? app.sharedRes x = some res ∧
      ((res.lockFree = true ∧ r.static = (k.runsOnce || ctx)) ∨ (res.lockFree = false ∧ a = .shared ∧ r.excl = false ∧ r.static = ctx)) := by
  unfold sharedRef at h
  split at h
  · next res hr =>
    split at h
    · next hl => cases h; exact ⟨rfl, res, hr, .inl ⟨hl, rfl⟩⟩
    · next hl =>
      split at h
      · next ha => cases h; exact ⟨rfl, res, hr, .inr ⟨by simpa using hl, by simpa using ha, rfl, rfl⟩⟩
      · cases h
  · cases h

/-- the references of a function -/
theorem ref_cases {app : App} {f : Frame} {sh : Map Access} {lo : Map TaskLocal} (hs : Src app f sh lo) {r : Ref} (hr : r ∈ f.refs) :
    (∃ x, (x, .external) ∈ lo ∧ r.place = .localRes x) ∨ (∃ x ty, (x, .declared ty) ∈ lo ∧ r.place = .declared f.name x) ∨
    ∃ x a res, (x, a) ∈ sh ∧ r.place = .shared x ∧ get? app.sharedRes x = some res ∧ (res.lockFree = false → a = .shared ∧ r.excl = false) := by
  rw [hs.refs] at hr
  rcases List.mem_append.mp hr with h | h
  · rcases (mem_localRefs h).2.2 with h | h
    · exact .inl h
    · exact .inr (.inl h)
  · obtain ⟨⟨x, a⟩, hm, h⟩ := List.mem_filterMap.mp h
    obtain ⟨h1, res, h2, h3⟩ := sharedRef_some h
    refine .inr (.inr ⟨x, a, res, hm, h1, h2, fun hl => ?_⟩)
    rcases h3 with ⟨h3, -⟩ | ⟨-, h3, h4, -⟩
    · rw [h3] at hl; cases hl
    · exact ⟨h3, h4⟩

theorem ref_static {app : App} {f : Frame} {sh : Map Access} {lo : Map TaskLocal} (hs : Src app f sh lo) {r : Ref} (hr : r ∈ f.refs) (hst : r.static = true) :
    f.kind.runsOnce = true ∨ f.ctx = true := by
  rw [hs.refs] at hr
  rcases List.mem_append.mp hr with h | h
  · have := (mem_localRefs h).2.1
    rw [hst] at this
    simpa using this.symm
  · obtain ⟨⟨x, a⟩, hm, h⟩ := List.mem_filterMap.mp h
    obtain ⟨h1, res, h2, h3⟩ := sharedRef_some h
    rcases h3 with ⟨-, h3⟩ | ⟨-, -, -, h3⟩
    · rw [hst] at h3; simpa using h3.symm
    · rw [hst] at h3; exact .inr h3.symm

theorem localRefs_pairwise {k : Kind} {ctx : Bool} {n : Ident} {m : Map TaskLocal} (h : (m.map Prod.fst).Nodup) : (localRefs k ctx n m).Pairwise Ok := by
  unfold localRefs
  rw [List.pairwise_map]
  rw [List.Nodup, List.pairwise_map] at h
  refine h.imp ?_
  rintro ⟨x, t⟩ ⟨y, t'⟩ hne e
  exfalso
  cases t <;> cases t' <;> simp at e <;> exact hne e

theorem sharedRefs_pairwise {app : App} {k : Kind} {ctx : Bool} {m : Map Access} (h : (m.map Prod.fst).Nodup) : (m.filterMap (sharedRef app k ctx)).Pairwise Ok := by
  rw [List.pairwise_filterMap]
  rw [List.Nodup, List.pairwise_map] at h
  refine h.imp ?_
  rintro ⟨x, a⟩ ⟨y, a'⟩ hne r hr r' hr' e
  rw [(sharedRef_some hr).1, (sharedRef_some hr').1] at e
  exact absurd (Place.shared.inj e) hne

theorem good {raw : Raw} {app : App} {defs : List Def} {out : Ident → Output} (hs : Says raw app) (hfa : Facts app)
    (hret : ∀ n t, (n, t) ∈ app.sw → isBottom defs n = true → (out n).inhabited = false) : Good (frames app defs out) := by
  have hbot : ∀ f ∈ frames app defs out, f.ctx = true → f.returns = false := by
    intro f hf
    unfold frames at hf
    simp only [List.mem_append, List.mem_singleton, List.mem_map] at hf
    rcases hf with ((rfl | hf) | ⟨⟨n, t⟩, hm, rfl⟩) | ⟨⟨n, t⟩, hm, rfl⟩
    · intro h; cases h
    · split at hf
      · cases List.mem_singleton.mp hf; intro h; cases h
      · cases hf
    · intro h; cases h
    · exact hret n t hm
  refine ⟨fun f hf g hg e => names_unique hs hf hg e, ?_, ?_, ?_, ?_⟩
  · intro f hf hr r hm hst
    obtain ⟨sh, lo, hsrc⟩ := src hs hf
    rcases ref_static hsrc hm hst with h | h
    · exact h
    · rw [hbot f hf h] at hr; cases hr
  · intro f hf
    obtain ⟨sh, lo, hsrc⟩ := src hs hf
    rw [hsrc.refs, List.pairwise_append]
    refine ⟨localRefs_pairwise hsrc.nodupL, sharedRefs_pairwise hsrc.nodupS, ?_⟩
    intro r hr r' hr' e
    exfalso
    obtain ⟨⟨x, a⟩, -, h⟩ := List.mem_filterMap.mp hr'
    rw [(sharedRef_some h).1] at e
    rcases (mem_localRefs hr).2.2 with ⟨y, -, h⟩ | ⟨y, ty, -, h⟩ <;> rw [h] at e <;> cases e
  · intro f hf g hg hne r hr r' hr' hok
    obtain ⟨sh, lo, hsrc⟩ := src hs hf
    obtain ⟨sh', lo', hsrc'⟩ := src hs hg
    have hst := ref_static hsrc hr
    have hst' := ref_static hsrc' hr'
    obtain ⟨e, hx⟩ : r.place = r'.place ∧ ¬ (r.excl = false ∧ r'.excl = false) := by
      unfold Ok at hok
      exact Classical.not_imp.mp hok
    rcases ref_cases hsrc hr with ⟨x, h1, h2⟩ | ⟨x, ty, h1, h2⟩ | ⟨x, a, res, h1, h2, h3, h4⟩ <;>
      rcases ref_cases hsrc' hr' with ⟨y, h1', h2'⟩ | ⟨y, ty', h1', h2'⟩ | ⟨y, a', res', h1', h2', h3', h4'⟩ <;> rw [h2, h2'] at e <;> try cases e
    · exact absurd (hfa.locals x _ _ _ _ (hsrc.locals x h1) (hsrc'.locals x h1')) hne
    · exact absurd (Place.declared.inj e).1 hne
    · rw [h3] at h3'
      cases h3'
      have hlf : res.lockFree = true := by
        cases hl : res.lockFree with
        | true => rfl
        | false => exact absurd ⟨(h4 hl).2, (h4' hl).2⟩ hx
      have u := hsrc.shared x a h1
      have u' := hsrc'.shared x a' h1'
      obtain ⟨hp, hsw⟩ := hfa.lockFree x res h3 hlf
      have hpp := hp _ _ _ _ _ _ u u'
      have k := hsrc.kind
      have k' := hsrc'.kind
      cases hk : f.kind <;> cases hk' : g.kind <;> rw [hk] at k <;> rw [hk'] at k' <;> simp only at k k'
      all_goals try (rw [k.2.1] at h1; cases h1)
      all_goals try (rw [k'.2.1] at h1'; cases h1')
      all_goals try (obtain ⟨t, ht⟩ := k; exact absurd ht (hsw _ _ _ _ u))
      all_goals try (obtain ⟨t, ht⟩ := k'; exact absurd ht (hsw _ _ _ _ u'))
      · obtain ⟨⟨i, h5, h6⟩, -⟩ := k
        obtain ⟨⟨j, h7, h8⟩, -⟩ := k'
        rw [h5] at h7; cases h7
        exact absurd (h6.trans h8.symm) hne
      · omega
      · omega
      · refine ⟨rfl, rfl, hpp, ?_, ?_⟩
        · cases hq : r.static with
          | false => rfl
          | true => rcases hst hq with h | h
                    · rw [hk] at h; cases h
                    · rw [k.2.2] at h; cases h
        · cases hq : r'.static with
          | false => rfl
          | true => rcases hst' hq with h | h
                    · rw [hk'] at h; cases h
                    · rw [k'.2.2] at h; cases h
  · intro f hf g hg r hr x hx e
    obtain ⟨sh, lo, hsrc⟩ := src hs hf
    obtain ⟨sh', lo', hsrc'⟩ := src hs hg
    rw [hsrc'.proxies] at hx
    obtain ⟨⟨y, a⟩, h1, h2⟩ := List.mem_filterMap.mp hx
    unfold proxy at h2
    split at h2
    · next res hres =>
      simp only at hres
      split at h2
      · cases h2
      · next hl =>
        split at h2
        · cases h2
        · next ha =>
          simp only [Option.some.injEq] at h2
          subst h2
          rcases ref_cases hsrc hr with ⟨z, -, h⟩ | ⟨z, ty, -, h⟩ | ⟨z, a', res', h3, h, h5, h6⟩ <;> rw [h] at e <;> cases e
          rw [hres] at h5; cases h5
          have := (h6 (by simpa using hl)).1
          have := hfa.mixed _ _ _ _ _ _ _ (hsrc.shared y a' h3) (hsrc'.shared y a h1)
          subst this
          exact ha (by simp_all)
    · cases h2

end Verif.Escape
