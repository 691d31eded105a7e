import Verif.Escape.Spec

/-! # Invariant of executions -/

namespace Verif.Escape
open Verif.Analysis (Ident)

theorem Ok.symm {a b : Ref} (h : Ok a b) : Ok b a := fun e => (h e.symm).symm

/-- What is needed of the functions of an application. -/
structure Good (fs : List Frame) : Prop where
  names : ∀ f ∈ fs, ∀ g ∈ fs, f.name = g.name → f = g
  once : ∀ f ∈ fs, f.returns = true → ∀ r ∈ f.refs, r.static = true → f.kind.runsOnce = true
  within : ∀ f ∈ fs, f.refs.Pairwise Ok
  across : ∀ f ∈ fs, ∀ g ∈ fs, f.name ≠ g.name → ∀ r ∈ f.refs, ∀ r' ∈ g.refs, ¬ Ok r r' →
    f.kind = .hardware ∧ g.kind = .hardware ∧ f.prio = g.prio ∧ r.static = false ∧ r'.static = false
  proxies : ∀ f ∈ fs, ∀ g ∈ fs, ∀ r ∈ f.refs, ∀ x ∈ g.proxies, r.place ≠ .shared x

structure Inv (fs : List Frame) (s : St) : Prop where
  from_ : ∀ t r, (t, r) ∈ s.held → ∃ f ∈ fs, f.name = t ∧ r ∈ f.refs ∧ t ∈ s.started
  alive : ∀ t r, (t, r) ∈ s.held → t ∈ s.active ∨ r.static = true
  ended : ∀ f ∈ fs, f.name ∈ s.started → f.name ∉ s.active → f.returns = true
  ok : s.held.Pairwise fun a b => Ok a.2 b.2
  locks : s.locked.Pairwise fun a b => a.2 ≠ b.2
  lockFrom : ∀ t r, (t, r) ∈ s.locked → ∃ f ∈ fs, r ∈ f.proxies

theorem inv_start {fs : List Frame} (hg : Good fs) {s : St} (hi : Inv fs s) {f : Frame} (hf : f ∈ fs) (ha : f.name ∉ s.active) (ho : f.kind.runsOnce = true → f.name ∉ s.started)
    (hp : f.kind = .hardware → ∀ g ∈ fs, g.kind = .hardware → g.name ∈ s.active → g.prio < f.prio) :
    Inv fs { s with active := f.name :: s.active, started := f.name :: s.started, held := f.refs.map (fun r => (f.name, r)) ++ s.held } := by
  refine ⟨?_, ?_, ?_, ?_, hi.locks, hi.lockFrom⟩
  · intro t r h
    rcases List.mem_append.mp h with h | h
    · obtain ⟨r', hr', e⟩ := List.mem_map.mp h
      cases e
      exact ⟨f, hf, rfl, hr', List.mem_cons_self⟩
    · obtain ⟨g, h1, h2, h3, h4⟩ := hi.from_ t r h
      exact ⟨g, h1, h2, h3, List.mem_cons_of_mem _ h4⟩
  · intro t r h
    rcases List.mem_append.mp h with h | h
    · obtain ⟨r', hr', e⟩ := List.mem_map.mp h
      cases e
      exact .inl List.mem_cons_self
    · exact (hi.alive t r h).imp (List.mem_cons_of_mem _) id
  · intro g hgm hs hna
    have hne : g.name ≠ f.name := fun e => hna (e ▸ List.mem_cons_self)
    refine hi.ended g hgm ?_ (fun h => hna (List.mem_cons_of_mem _ h))
    rcases List.mem_cons.mp hs with e | h
    · exact absurd e hne
    · exact h
  · rw [List.pairwise_append]
    refine ⟨?_, hi.ok, ?_⟩
    · rw [List.pairwise_map]
      exact hg.within f hf
    · intro a ham b hbm
      obtain ⟨r, hr, rfl⟩ := List.mem_map.mp ham
      obtain ⟨t, r'⟩ := b
      obtain ⟨g, h1, h2, h3, h4⟩ := hi.from_ t r' hbm
      have hal := hi.alive t r' hbm
      subst h2
      by_cases hn : f.name = g.name
      · -- the same function: its earlier references are gone
        have e := hg.names f hf g h1 hn
        subst e
        rcases hal with h | h
        · exact absurd h ha
        · exact absurd h4 (ho (hg.once f hf (hi.ended f hf h4 ha) r' h3 h))
      · by_cases hok : Ok r r'
        · exact hok
        · obtain ⟨k1, k2, k3, -, k5⟩ := hg.across f hf g h1 hn r hr r' h3 hok
          rcases hal with h | h
          · have := hp k1 g h1 k2 h
            omega
          · rw [k5] at h; cases h

theorem inv_step {fs : List Frame} (hg : Good fs) {s s' : St} (hi : Inv fs s) (h : Step fs s s') : Inv fs s' := by
  cases h with
  | start f hf ha ho hp => exact inv_start hg hi hf ha ho hp
  | finish f hf ha hr hl =>
    refine ⟨?_, ?_, ?_, hi.ok.filter _, hi.locks, hi.lockFrom⟩
    · intro t r h
      exact hi.from_ t r (List.mem_filter.mp h).1
    · intro t r h
      obtain ⟨h1, h2⟩ := List.mem_filter.mp h
      have h2 := of_decide_eq_true h2
      rcases hi.alive t r h1 with h | h
      · rcases h2 with h2 | h2
        · exact .inl (List.mem_filter.mpr ⟨h, decide_eq_true h2⟩)
        · exact .inr h2
      · exact .inr h
    · intro g hgm hs hna
      by_cases e : g.name = f.name
      · rw [hg.names g hgm f hf e]; exact hr
      · exact hi.ended g hgm hs fun h => hna (List.mem_filter.mpr ⟨h, decide_eq_true e⟩)
  | drop l hl =>
    exact ⟨fun t r h => hi.from_ t r (hl.subset h), fun t r h => hi.alive t r (hl.subset h), hi.ended, hi.ok.sublist hl, hi.locks, hi.lockFrom⟩
  | lock f r hf ha hr hx =>
    refine ⟨hi.from_, hi.alive, hi.ended, hi.ok, ?_, ?_⟩
    · refine List.pairwise_cons.mpr ⟨?_, hi.locks⟩
      rintro ⟨t, r'⟩ h e
      cases e
      exact hx t h
    · intro t r' h
      rcases List.mem_cons.mp h with e | h
      · cases e; exact ⟨f, hf, hr⟩
      · exact hi.lockFrom t r' h
  | unlock t r h =>
    exact ⟨hi.from_, hi.alive, hi.ended, hi.ok, hi.locks.sublist List.erase_sublist, fun t r h => hi.lockFrom t r (List.mem_of_mem_erase h)⟩

theorem inv_reach {fs : List Frame} (hg : Good fs) {s : St} (h : Reach fs s) : Inv fs s := by
  induction h with
  | nil => constructor <;> simp
  | step _ hs ih => exact inv_step hg ih hs

theorem all_ok {fs : List Frame} (hg : Good fs) {s : St} (h : Reach fs s) : s.all.Pairwise Ok := by
  have hi := inv_reach hg h
  unfold St.all
  rw [List.pairwise_append, List.pairwise_map, List.pairwise_map]
  refine ⟨hi.ok, hi.locks.imp ?_, ?_⟩
  · intro a b hab e
    simp only [Place.shared.injEq] at e
    exact absurd e hab
  · intro a ha b hb e
    obtain ⟨⟨t, r⟩, h1, rfl⟩ := List.mem_map.mp ha
    obtain ⟨⟨t', x⟩, h2, rfl⟩ := List.mem_map.mp hb
    obtain ⟨f, hf, -, hr, -⟩ := hi.from_ t r h1
    obtain ⟨g, hgm, hx⟩ := hi.lockFrom t' x h2
    exact absurd e (hg.proxies f hf g hgm r hr x hx)

end Verif.Escape
