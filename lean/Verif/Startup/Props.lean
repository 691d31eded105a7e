import Verif.Startup.Model
import Verif.Analysis.AcceptProps

/-! # Startup: theorems -/

namespace Verif.Startup

open Verif.Analysis

/-- state after the statements `done`, as far as it is determined by them -/
def replay (done : List Stmt) : St := done.foldl execStmt { todo := [] }

theorem replay_snoc (done : List Stmt) (x : Stmt) : replay (done ++ [x]) = execStmt (replay done) x := by simp [replay]

theorem replay_facts (done : List Stmt) :
    (∀ r, r ∈ (replay done).wroteShared ↔ .writeShared r ∈ done) ∧ (∀ r, r ∈ (replay done).wroteLocal ↔ .writeLocal r ∈ done) ∧
    (∀ v, v ∈ (replay done).unmasked ↔ .unmask v ∈ done) ∧ (∀ v q, (v, q) ∈ (replay done).prio ↔ .setPriority v q ∈ done) ∧
    (∀ n, (replay done).thread = .idle n → .callIdle n ∈ done) ∧ ((replay done).thread = .zeroDispatcher → .zeroDispatcher ∈ done) ∧
    ((replay done).masked = false → .enableInterrupts ∈ done ∨ .disableInterrupts ∉ done) := by
  generalize hn : done.length = n
  induction n generalizing done with
  | zero =>
    have : done = [] := List.length_eq_zero_iff.mp hn
    subst this; simp [replay]
  | succ n ih =>
    have hne : done ≠ [] := by intro e; simp [e] at hn
    obtain ⟨l, x, rfl⟩ : ∃ l x, done = l ++ [x] := ⟨_, _, (List.dropLast_concat_getLast hne).symm⟩
    obtain ⟨h1, h2, h3, h4, h5, h6, h7⟩ := ih l (by simp at hn; omega)
    rw [replay_snoc]
    have hmem : ∀ y, y ∈ l ++ [x] ↔ y ∈ l ∨ y = x := by intro y; simp
    simp only [hmem]
    cases x <;> simp only [execStmt] <;> refine ⟨?_, ?_, ?_, ?_, ?_, ?_, ?_⟩ <;> grind

/-- the state is the replay of an executed prefix of `main`, except for pending interrupts and the progress of `init` -/
structure Inv (tg : Target) (p : Program) (done : List Stmt) (s : St) : Prop where
  split : p.main = done ++ s.todo
  st : s.masked = (replay done).masked ∧ s.prio = (replay done).prio ∧ s.unmasked = (replay done).unmasked ∧ s.wroteShared = (replay done).wroteShared ∧
    s.wroteLocal = (replay done).wroteLocal ∧ s.thread = (replay done).thread
  fresh : done = [] → ∀ v ∈ s.pending, tg.isException v = false
  init : s.inInit = true → done.getLast? = some .callInit
  ret : .callInit ∈ done → s.inInit = true ∨ s.initReturned = true

theorem inv_step {tg : Target} {p : Program} {done : List Stmt} {s s' : St} {a : Act} (hi : Inv tg p done s) (hs : Step tg p s a s') : ∃ done', Inv tg p done' s' := by
  cases hs with
  | pend v h =>
    refine ⟨done, ?_⟩
    obtain ⟨h1, h2, h3, h4, h5⟩ := hi
    refine ⟨h1, h2, ?_, h4, h5⟩
    intro hd x hx
    rcases List.mem_cons.mp hx with rfl | hx
    · cases he : tg.isException x
      · rfl
      · exact absurd (by rw [h1, hd]; rfl) (h he)
    · exact h3 hd x hx
  | exec st rest h hin =>
    refine ⟨done ++ [st], ?_⟩
    obtain ⟨h1, ⟨e1, e2, e3, e4, e5, e6⟩, h3, h4, h5⟩ := hi
    refine ⟨?_, ?_, by simp, ?_, ?_⟩
    · rw [h1, h]; cases st <;> simp [execStmt]
    · rw [replay_snoc]; cases st <;> simp [execStmt, e1, e2, e3, e4, e5, e6]
    · intro hh
      cases st <;> simp [execStmt, hin] at hh ⊢
    · intro hm
      rcases List.mem_append.mp hm with hm | hm
      · have := h5 hm
        cases st <;> simp [execStmt] <;> grind
      · simp at hm; subst hm; simp [execStmt]
  | initReturns hin =>
    refine ⟨done, ?_⟩
    obtain ⟨h1, h2, h3, h4, h5⟩ := hi
    exact ⟨h1, h2, h3, by simp, fun _ => .inr rfl⟩
  | hardware v q t h ht => exact ⟨done, hi⟩
  | software v q ts t h hm ht => exact ⟨done, hi⟩
  | idle n h => exact ⟨done, hi⟩
  | zero q ts t h hm ht => exact ⟨done, hi⟩

theorem inv_reach {tg : Target} {p : Program} {s : St} (h : Reach tg p s) : ∃ done, Inv tg p done s := by
  induction h with
  | start => exact ⟨[], rfl, ⟨rfl, rfl, rfl, rfl, rfl, rfl⟩, by simp, by simp, by simp⟩
  | step _ hs ih => obtain ⟨d, hd⟩ := ih; exact inv_step hd hs

/-- if `x` occurs in `l1`, and `l1` is a prefix of `A ++ x :: B` with `x ∉ A`, then everything of `A` is in `l1` -/
theorem prefix_mem {A B l1 l2 : List Stmt} {x : Stmt} (h : A ++ x :: B = l1 ++ l2) (hx : x ∉ A) (hx1 : x ∈ l1) : ∀ y ∈ A, y ∈ l1 := by
  induction A generalizing l1 with
  | nil => simp
  | cons a A ih =>
    cases l1 with
    | nil => cases hx1
    | cons b l1 =>
      simp only [List.cons_append, List.cons.injEq] at h
      obtain ⟨rfl, h⟩ := h
      intro y hy
      have hne : x ≠ a := fun e => hx (e ▸ List.mem_cons_self)
      rcases List.mem_cons.mp hy with rfl | hy
      · exact List.mem_cons_self
      · refine List.mem_cons_of_mem _ (ih h (fun hm => hx (List.mem_cons_of_mem _ hm)) ?_ y hy)
        rcases List.mem_cons.mp hx1 with e | h'
        · exact absurd e hne
        · exact h'

/-- the shape of `main` -/
theorem main_shape {tg : Target} {bits : Nat} {raw : Raw} {p : Program} (h : expand tg bits raw = .ok p) :
    ∃ A E last, p.main = (.disableInterrupts :: A ++ [.callInit] ++ E) ++ .enableInterrupts :: [last] ∧
      (∀ x ∈ A, (∃ v q, x = .setPriority v q) ∨ ∃ v, x = .unmask v) ∧ (∀ x ∈ E, (∃ r, x = .writeShared r) ∨ ∃ r, x = .writeLocal r) ∧
      (last = .spin ∨ last = .zeroDispatcher ∨ ∃ n, last = .callIdle n) ∧
      (∀ v q, .setPriority v q ∈ A ↔ (∃ t, (v, q, t) ∈ p.hwHandlers) ∨ ∃ ts, (some v, q, ts) ∈ p.dispatchers) ∧
      (∀ v, .unmask v ∈ A ↔ (∃ q t, (v, q, t) ∈ p.hwHandlers ∧ tg.isException v = false) ∨ ∃ q ts, (some v, q, ts) ∈ p.dispatchers) ∧
      (∀ t q r a, UsesShared raw t q r a → .writeShared r ∈ E) ∧ (∀ t q r, UsesLocal raw t q r → .writeLocal r ∈ E) := by
  obtain ⟨app, base, an, he⟩ := expand_ok h
  have hg := codegen_ok he.codegen
  have hs := he.says
  obtain ⟨s, own, hown, -, hus, hul, -⟩ := analyze_ok he.analyze
  have hdisp : ∀ v q, (q, v) ∈ an.interrupts ↔ ∃ ts, (some v, q, ts) ∈ p.dispatchers := by
    intro v q
    constructor
    · intro hm
      obtain ⟨hq, hex⟩ := (he.disp.keys q).mp ⟨v, hm⟩
      refine ⟨channelTasks app q, (mem_dispatchers hg).mpr ⟨hex, rfl, ?_⟩⟩
      obtain ⟨o, ho⟩ := vectorFor_total he.disp hex
      rcases vectorFor_ok ho with ⟨h0, -⟩ | ⟨-, v', rfl, hv'⟩
      · omega
      · have e1 := get?_of_mem (α := Ident) he.disp.nodupK hm
        have e2 := get?_of_mem (α := Ident) he.disp.nodupK hv'
        rw [e1] at e2; cases e2; exact ho
    · rintro ⟨ts, hm⟩
      obtain ⟨-, -, hv⟩ := (mem_dispatchers hg).mp hm
      rcases vectorFor_ok hv with ⟨-, h0⟩ | ⟨-, v', h0, hv'⟩
      · cases h0
      · cases h0; exact hv'
  have hhw : ∀ v q, (∃ t, (v, q, t) ∈ p.hwHandlers) ↔ ∃ nt ∈ app.hw, nt.2.binds = v ∧ nt.2.priority = q := by
    intro v q; rw [hg.hw]
    simp only [List.mem_map, Prod.mk.injEq]
    constructor
    · rintro ⟨t, nt, hnt, h1, h2, -⟩; exact ⟨nt, hnt, h1, h2⟩
    · rintro ⟨nt, hnt, h1, h2⟩; exact ⟨nt.1, nt, hnt, h1, h2, rfl⟩
  have hlk : lastStmt app = .spin ∨ lastStmt app = .zeroDispatcher ∨ ∃ n, lastStmt app = .callIdle n := by
    unfold lastStmt
    split
    · exact .inr (.inr ⟨_, rfl⟩)
    · split
      · exact .inr (.inl rfl)
      · exact .inl rfl
  refine ⟨preInitEnable tg app an, ((app.sharedRes.filter fun kv => decide (kv.1 ∈ an.base.usedShared)).map fun kv => Stmt.writeShared kv.1) ++
    ((app.localRes.filter fun kv => decide (kv.1 ∈ an.base.usedLocal)).map fun kv => Stmt.writeLocal kv.1), lastStmt app, ?_, ?_, ?_, hlk, ?_, ?_, ?_, ?_⟩
  · rw [hg.main]
    unfold mainStmts
    simp
  · intro x hx
    unfold preInitEnable at hx
    simp only [List.mem_append, List.mem_flatMap, List.mem_map, List.mem_cons, List.not_mem_nil, or_false] at hx
    rcases hx with ⟨pv, -, rfl | rfl⟩ | ⟨nt, -, rfl⟩
    · exact .inl ⟨_, _, rfl⟩
    · exact .inr ⟨_, rfl⟩
    · exact .inl ⟨_, _, rfl⟩
  · intro x hx
    simp only [List.mem_append, List.mem_map] at hx
    rcases hx with ⟨kv, -, rfl⟩ | ⟨kv, -, rfl⟩
    · exact .inl ⟨_, rfl⟩
    · exact .inr ⟨_, rfl⟩
  · intro v q
    rw [hhw, ← hdisp]
    unfold preInitEnable
    simp only [List.mem_append, List.mem_flatMap, List.mem_map, List.mem_cons, List.not_mem_nil, or_false, List.mem_filter, Stmt.setPriority.injEq]
    constructor
    · rintro (⟨pv, (hpv | ⟨nt, ⟨hnt, -⟩, rfl⟩), hh⟩ | ⟨nt, ⟨hnt, -⟩, h1, h2⟩)
      · rcases hh with ⟨rfl, rfl⟩ | hh
        · exact .inr hpv
        · cases hh
      · rcases hh with ⟨rfl, rfl⟩ | hh
        · exact .inl ⟨nt, hnt, rfl, rfl⟩
        · cases hh
      · exact .inl ⟨nt, hnt, h1, h2⟩
    · rintro (⟨nt, hnt, rfl, rfl⟩ | hpv)
      · cases hex : tg.isException nt.2.binds
        · exact .inl ⟨(nt.2.priority, nt.2.binds), .inr ⟨nt, ⟨hnt, by simp [hex]⟩, rfl⟩, .inl ⟨rfl, rfl⟩⟩
        · exact .inr ⟨nt, ⟨hnt, hex⟩, rfl, rfl⟩
      · exact .inl ⟨(q, v), .inl hpv, .inl ⟨rfl, rfl⟩⟩
  · intro v
    simp only [← hdisp]
    unfold preInitEnable
    simp only [List.mem_append, List.mem_flatMap, List.mem_map, List.mem_cons, List.not_mem_nil, or_false, List.mem_filter]
    constructor
    · rintro (⟨pv, (hpv | ⟨nt, ⟨hnt, hex⟩, rfl⟩), hh⟩ | ⟨nt, ⟨hnt, -⟩, h1⟩)
      · rcases hh with hh | hh
        · cases hh
        · cases hh; exact .inr ⟨_, hpv⟩
      · rcases hh with hh | hh
        · cases hh
        · cases hh
          obtain ⟨t, ht⟩ := (hhw nt.2.binds nt.2.priority).mpr ⟨nt, hnt, rfl, rfl⟩
          exact .inl ⟨_, t, ht, by simpa using hex⟩
      · cases h1
    · rintro (⟨q, t, ht, hex⟩ | ⟨q, hpv⟩)
      · obtain ⟨nt, hnt, rfl, rfl⟩ := (hhw v q).mp ⟨t, ht⟩
        exact .inl ⟨(nt.2.priority, nt.2.binds), .inr ⟨nt, ⟨hnt, by simp [hex]⟩, rfl⟩, .inr rfl⟩
      · exact .inl ⟨(q, v), .inl hpv, .inr rfl⟩
  · intro t q r a hu
    obtain ⟨res, hres⟩ := (C45_resources_validated h).1 _ _ _ _ hu
    refine List.mem_append_left _ (List.mem_map.mpr ⟨(r, res), List.mem_filter.mpr ⟨(hs.sharedRes _ _).mpr hres, ?_⟩, rfl⟩)
    rw [he.anBase, hus, decide_eq_true_eq, hown.used]
    exact ⟨q, a, mem_sharedAccesses.mpr ⟨t, hs.uses.mp hu⟩⟩
  · intro t q r hu
    obtain ⟨ty, hty⟩ := (C45_resources_validated h).2.1 _ _ _ hu
    refine List.mem_append_right _ (List.mem_map.mpr ⟨(r, ty), List.mem_filter.mpr ⟨(hs.localRes _ _).mpr hty, ?_⟩, rfl⟩)
    rw [he.anBase, hul, decide_eq_true_eq]
    exact List.mem_map.mpr ⟨_, (mem_allLocals hs.initDecl).mpr ⟨t, hs.usesLocal.mp hu⟩, rfl⟩

variable {tg : Target} {bits : Nat} {raw : Raw} {p : Program}

/-- when a task runs, all of `main` up to and including the enabling of interrupts has been executed -/
theorem run_after_enable (h : expand tg bits raw = .ok p) {s s' : St} (hr : Reach tg p s) {t : Ident} {o : Option (Ident × Nat)} (hs : Step tg p s (.run t o) s') :
    ∃ done, Inv tg p done s ∧ .enableInterrupts ∈ done := by
  obtain ⟨A, E, last, hm, hA, hE, hl, -⟩ := main_shape h
  obtain ⟨done, hi⟩ := inv_reach hr
  refine ⟨done, hi, ?_⟩
  have hsplit := hi.split
  have hfirst : done = [] ∨ .disableInterrupts ∈ done := by
    cases done with
    | nil => exact .inl rfl
    | cons d done =>
      rw [hm] at hsplit
      simp only [List.cons_append, List.cons.injEq] at hsplit
      exact .inr (hsplit.1 ▸ List.mem_cons_self)
  obtain ⟨-, -, f3, -, f5, f6, f7⟩ := replay_facts done
  obtain ⟨e1, e2, e3, e4, e5, e6⟩ := hi.st
  have htakes : ∀ v, takes tg s v → .enableInterrupts ∈ done := by
    rintro v ⟨h1, h2, h3⟩
    rcases hfirst with hd | hd
    · exfalso
      rcases h3 with h3 | h3
      · rw [e3, f3, hd] at h3; cases h3
      · rw [hi.fresh hd v h2] at h3; cases h3
    · rw [e1] at h1
      rcases f7 h1 with h | h
      · exact h
      · exact absurd hd h
  have hlast : last ∈ done → .enableInterrupts ∈ done := by
    intro hmem
    have hnot : last ∉ ((.disableInterrupts :: A ++ [.callInit] ++ E) ++ [Stmt.enableInterrupts]) := by
      intro hh
      simp only [List.mem_append, List.mem_cons, List.not_mem_nil, or_false] at hh
      rcases hh with (((hh | hh) | hh) | hh) | hh
      · subst hh; simp at hl
      · rcases hA _ hh with ⟨v, q, e⟩ | ⟨v, e⟩ <;> subst e <;> simp at hl
      · subst hh; simp at hl
      · rcases hE _ hh with ⟨v, e⟩ | ⟨v, e⟩ <;> subst e <;> simp at hl
      · subst hh; simp at hl
    refine prefix_mem (A := (.disableInterrupts :: A ++ [.callInit] ++ E) ++ [Stmt.enableInterrupts]) (x := last) (B := []) (l2 := s.todo) ?_ hnot hmem _ (by simp)
    rw [← hsplit, hm]; simp
  cases hs with
  | hardware v q t h ht => exact htakes v ht
  | software v q ts t h hm' ht => exact htakes v ht
  | idle n hn =>
    rw [e6] at hn
    have hc := f5 _ hn
    have hmain : .callIdle t ∈ p.main := by rw [hsplit]; exact List.mem_append_left _ hc
    rw [hm] at hmain
    have : .callIdle t = last := by
      simp only [List.mem_append, List.mem_cons, List.not_mem_nil, or_false] at hmain
      rcases hmain with (((hh | hh) | hh) | hh) | hh | hh
      · cases hh
      · rcases hA _ hh with ⟨v, q, e⟩ | ⟨v, e⟩ <;> cases e
      · cases hh
      · rcases hE _ hh with ⟨v, e⟩ | ⟨v, e⟩ <;> cases e
      · cases hh
      · exact hh
    exact hlast (this ▸ hc)
  | zero q ts t h hm' ht =>
    rw [e6] at ht
    have hc := f6 ht
    have hmain : .zeroDispatcher ∈ p.main := by rw [hsplit]; exact List.mem_append_left _ hc
    rw [hm] at hmain
    have : .zeroDispatcher = last := by
      simp only [List.mem_append, List.mem_cons, List.not_mem_nil, or_false] at hmain
      rcases hmain with (((hh | hh) | hh) | hh) | hh | hh
      · cases hh
      · rcases hA _ hh with ⟨v, q, e⟩ | ⟨v, e⟩ <;> cases e
      · cases hh
      · rcases hE _ hh with ⟨v, e⟩ | ⟨v, e⟩ <;> cases e
      · cases hh
      · exact hh
    exact hlast (this ▸ hc)

/-- **C53** (meaning of the flags) `init` has returned only if it has been called by `main` and returned; a resource has been stored only by the statement of `main` for it. -/
theorem C53_flags_mean {s : St} (hr : Reach tg p s) : (s.initReturned = true → ∃ s1 s2, Reach tg p s1 ∧ s1.inInit = true ∧ Step tg p s1 .initReturns s2) ∧
    (∀ r ∈ s.wroteShared, ∃ s1 s2, Reach tg p s1 ∧ s1.todo.head? = some (.writeShared r) ∧ Step tg p s1 .exec s2) ∧ ∀ r ∈ s.wroteLocal, ∃ s1 s2, Reach tg p s1 ∧ s1.todo.head? = some (.writeLocal r) ∧ Step tg p s1 .exec s2 := by
  induction hr with
  | start => refine ⟨?_, ?_, ?_⟩ <;> simp
  | @step s a s' h hs ih =>
    obtain ⟨i1, i2, i3⟩ := ih
    cases hs with
    | exec st rest ht hi =>
      have hx : Step tg p s .exec _ := .exec st rest ht hi
      have hd : s.todo.head? = some st := by rw [ht]; rfl
      cases st <;> simp only [execStmt] at hx ⊢
      case writeShared r =>
        refine ⟨i1, fun r' hr' => ?_, i3⟩
        rcases List.mem_cons.mp hr' with rfl | hr'
        · exact ⟨_, _, h, hd, hx⟩
        · exact i2 r' hr'
      case writeLocal r =>
        refine ⟨i1, i2, fun r' hr' => ?_⟩
        rcases List.mem_cons.mp hr' with rfl | hr'
        · exact ⟨_, _, h, hd, hx⟩
        · exact i3 r' hr'
      all_goals exact ⟨i1, i2, i3⟩
    | initReturns hi => exact ⟨fun _ => ⟨_, _, h, hi, .initReturns hi⟩, i2, i3⟩
    | _ => exact ⟨i1, i2, i3⟩

/-- Whenever code of a task (hardware, software or idle) runs: `init` has returned, and every resource that any task has in its lists has been stored. -/
theorem C53_tasks_run_after_init (h : expand tg bits raw = .ok p) {s s' : St} (hr : Reach tg p s) {t : Ident} {o : Option (Ident × Nat)} (hs : Step tg p s (.run t o) s') :
    s.initReturned = true ∧ s.inInit = false ∧ (∀ t' q r a, UsesShared raw t' q r a → r ∈ s.wroteShared) ∧ ∀ t' q r, UsesLocal raw t' q r → r ∈ s.wroteLocal := by
  obtain ⟨A, E, last, hm, hA, hE, hl, -, -, hS, hL⟩ := main_shape h
  obtain ⟨done, hi, hen⟩ := run_after_enable h hr hs
  have hall : ∀ x ∈ .disableInterrupts :: A ++ [.callInit] ++ E, x ∈ done := by
    refine prefix_mem (x := .enableInterrupts) (B := [last]) (l2 := s.todo) (by rw [← hi.split, hm]) ?_ hen
    intro hh
    simp only [List.mem_append, List.mem_cons, List.not_mem_nil, or_false] at hh
    rcases hh with ((hh | hh) | hh) | hh
    · cases hh
    · rcases hA _ hh with ⟨v, q, e⟩ | ⟨v, e⟩ <;> cases e
    · cases hh
    · rcases hE _ hh with ⟨v, e⟩ | ⟨v, e⟩ <;> cases e
  obtain ⟨f1, f2, -⟩ := replay_facts done
  obtain ⟨e1, e2, e3, e4, e5, e6⟩ := hi.st
  have hni : s.inInit = false := by
    cases hin : s.inInit
    · rfl
    · exfalso
      have hlast := hi.init hin
      obtain ⟨l, hl'⟩ := List.getLast?_eq_some_iff.mp hlast
      -- `done` ends with `callInit`, but `enableInterrupts` is in it and only comes later
      have hen' : .enableInterrupts ∈ l := by
        rw [hl'] at hen
        rcases List.mem_append.mp hen with h | h
        · exact h
        · simp at h
      have hsp := hi.split
      rw [hl', hm] at hsp
      have : ∀ x ∈ .disableInterrupts :: A ++ [.callInit] ++ E, x ∈ l := by
        refine prefix_mem (x := .enableInterrupts) (B := [last]) (l2 := .callInit :: s.todo) (by rw [hsp]; simp) ?_ hen'
        intro hh
        simp only [List.mem_append, List.mem_cons, List.not_mem_nil, or_false] at hh
        rcases hh with ((hh | hh) | hh) | hh
        · cases hh
        · rcases hA _ hh with ⟨v, q, e⟩ | ⟨v, e⟩ <;> cases e
        · cases hh
        · rcases hE _ hh with ⟨v, e⟩ | ⟨v, e⟩ <;> cases e
      -- so `callInit` occurs twice in `main`
      have hc : 2 ≤ p.main.count .callInit := by
        rw [hi.split, hl', List.append_assoc, List.count_append]
        have h1 : 0 < l.count .callInit := List.count_pos_iff.mpr (this .callInit (by simp))
        have h2 : 0 < (([Stmt.callInit] ++ s.todo).count .callInit) := List.count_pos_iff.mpr (by simp)
        omega
      have hone : p.main.count .callInit = 1 := by
        rw [hm]
        have z1 : A.count .callInit = 0 := List.count_eq_zero.mpr (fun hh => by rcases hA _ hh with ⟨v, q, e⟩ | ⟨v, e⟩ <;> cases e)
        have z2 : E.count .callInit = 0 := List.count_eq_zero.mpr (fun hh => by rcases hE _ hh with ⟨v, e⟩ | ⟨v, e⟩ <;> cases e)
        have z3 : [last].count .callInit = 0 := List.count_eq_zero.mpr (fun hh => by simp at hh; subst hh; simp at hl)
        have : (Stmt.disableInterrupts :: A ++ [Stmt.callInit] ++ E ++ Stmt.enableInterrupts :: [last]).count Stmt.callInit
            = A.count .callInit + 1 + E.count .callInit + [last].count .callInit := by
          simp [List.count_append, List.count_cons]; omega
        rw [this, z1, z2, z3]
      omega
  refine ⟨?_, hni, ?_, ?_⟩
  · rcases hi.ret (hall .callInit (by simp)) with h | h
    · rw [hni] at h; cases h
    · exact h
  · intro t' q r a hu
    rw [e4, f1]
    exact hall _ (List.mem_append_right _ (hS t' q r a hu))
  · intro t' q r hu
    rw [e5, f2]
    exact hall _ (List.mem_append_right _ (hL t' q r hu))

/-- While `init` runs interrupts are masked and no code of a task runs. -/
theorem C53_masked_during_init (h : expand tg bits raw = .ok p) {s : St} (hr : Reach tg p s) (hin : s.inInit = true) :
    s.masked = true ∧ ∀ t o s', ¬ Step tg p s (.run t o) s' := by
  refine ⟨?_, fun t o s' hs => by rw [(C53_tasks_run_after_init h hr hs).2.1] at hin; cases hin⟩
  obtain ⟨A, E, last, hm, hA, hE, hl, -⟩ := main_shape h
  obtain ⟨done, hi⟩ := inv_reach hr
  have hlast := hi.init hin
  obtain ⟨l, hl'⟩ := List.getLast?_eq_some_iff.mp hlast
  obtain ⟨-, -, -, -, -, -, f7⟩ := replay_facts done
  cases hmk : s.masked
  · exfalso
    rw [hi.st.1] at hmk
    have hdis : .disableInterrupts ∈ done := by
      have := hi.split
      rw [hm, hl'] at this
      rw [hl']
      cases l with
      | nil => simp at this
      | cons a l =>
        simp only [List.cons_append, List.cons.injEq] at this
        rw [this.1]; simp
    rcases f7 hmk with hen | hno
    · -- `enableInterrupts` before `callInit`
      have hc := prefix_mem (A := .disableInterrupts :: A ++ [.callInit] ++ E) (x := .enableInterrupts) (B := [last]) (l1 := l) (l2 := .callInit :: s.todo)
        (by rw [← hm, hi.split, hl']; simp) (by
          intro hh
          simp only [List.mem_append, List.mem_cons, List.not_mem_nil, or_false] at hh
          rcases hh with ((hh | hh) | hh) | hh
          · cases hh
          · rcases hA _ hh with ⟨v, q, e⟩ | ⟨v, e⟩ <;> cases e
          · cases hh
          · rcases hE _ hh with ⟨v, e⟩ | ⟨v, e⟩ <;> cases e) (by
          rw [hl'] at hen
          rcases List.mem_append.mp hen with h | h
          · exact h
          · simp at h)
      have hc2 : 2 ≤ p.main.count .callInit := by
        rw [hi.split, hl', List.append_assoc, List.count_append]
        have h1 : 0 < l.count .callInit := List.count_pos_iff.mpr (hc .callInit (by simp))
        have h2 : 0 < (([Stmt.callInit] ++ s.todo).count .callInit) := List.count_pos_iff.mpr (by simp)
        omega
      have hone : p.main.count .callInit = 1 := by
        rw [hm]
        have z1 : A.count .callInit = 0 := List.count_eq_zero.mpr (fun hh => by rcases hA _ hh with ⟨v, q, e⟩ | ⟨v, e⟩ <;> cases e)
        have z2 : E.count .callInit = 0 := List.count_eq_zero.mpr (fun hh => by rcases hE _ hh with ⟨v, e⟩ | ⟨v, e⟩ <;> cases e)
        have z3 : [last].count .callInit = 0 := List.count_eq_zero.mpr (fun hh => by simp at hh; subst hh; simp at hl)
        have : (Stmt.disableInterrupts :: A ++ [Stmt.callInit] ++ E ++ Stmt.enableInterrupts :: [last]).count Stmt.callInit
            = A.count .callInit + 1 + E.count .callInit + [last].count .callInit := by
          simp [List.count_append, List.count_cons]; omega
        rw [this, z1, z2, z3]
      omega
    · exact hno hdis
  · rfl

/-- When a handler runs, its vector has been given its priority before, and no other one. -/
theorem C53_priority_configured (h : expand tg bits raw = .ok p) {s s' : St} (hr : Reach tg p s) {t v : Ident} {q : Nat} (hs : Step tg p s (.run t (some (v, q))) s') :
    (v, q) ∈ s.prio ∧ ∀ q', (v, q') ∈ s.prio → q' = q := by
  obtain ⟨A, E, last, hm, hA, hE, hl, hP, -⟩ := main_shape h
  obtain ⟨done, hi, hen⟩ := run_after_enable h hr hs
  have hall : ∀ x ∈ .disableInterrupts :: A ++ [.callInit] ++ E, x ∈ done := by
    refine prefix_mem (x := .enableInterrupts) (B := [last]) (l2 := s.todo) (by rw [← hi.split, hm]) ?_ hen
    intro hh
    simp only [List.mem_append, List.mem_cons, List.not_mem_nil, or_false] at hh
    rcases hh with ((hh | hh) | hh) | hh
    · cases hh
    · rcases hA _ hh with ⟨v, q, e⟩ | ⟨v, e⟩ <;> cases e
    · cases hh
    · rcases hE _ hh with ⟨v, e⟩ | ⟨v, e⟩ <;> cases e
  obtain ⟨-, -, -, f4, -⟩ := replay_facts done
  have hset : (∃ t, (v, q, t) ∈ p.hwHandlers) ∨ ∃ ts, (some v, q, ts) ∈ p.dispatchers := by
    cases hs with
    | hardware _ _ _ h _ => exact .inl ⟨_, h⟩
    | software _ _ ts _ h _ _ => exact .inr ⟨ts, h⟩
  constructor
  · rw [hi.st.2.1, f4]
    exact hall _ (by simp [(hP v q).mpr hset])
  · intro q' hq'
    rw [hi.st.2.1, f4] at hq'
    have hmain : .setPriority v q' ∈ p.main := by rw [hi.split]; exact List.mem_append_left _ hq'
    rw [hm] at hmain
    have hA' : .setPriority v q' ∈ A := by
      simp only [List.mem_append, List.mem_cons, List.not_mem_nil, or_false] at hmain
      rcases hmain with (((hh | hh) | hh) | hh) | hh | hh
      · cases hh
      · exact hh
      · cases hh
      · rcases hE _ hh with ⟨v, e⟩ | ⟨v, e⟩ <;> cases e
      · cases hh
      · subst hh; simp at hl
    obtain ⟨g1, g2, g3⟩ := C44_dispatchers_not_hardware h
    obtain ⟨-, -, d3, -⟩ := C44_one_dispatcher_per_priority h
    rcases hset with ⟨t1, h1⟩ | ⟨ts1, h1⟩ <;> rcases (hP v q').mp hA' with ⟨t2, h2⟩ | ⟨ts2, h2⟩
    · have hinj : ∀ {l : List (Ident × Nat × Ident)}, (l.map Prod.fst).Nodup → ∀ a b, (v, a) ∈ l → (v, b) ∈ l → a = b := by
        intro l
        induction l with
        | nil => intro _ a b h; cases h
        | cons x l ih =>
          intro hn a b ha hb
          rw [List.map_cons, List.nodup_cons] at hn
          rcases List.mem_cons.mp ha with rfl | ha'
          · rcases List.mem_cons.mp hb with hb | hb'
            · cases hb; rfl
            · exact absurd (List.mem_map.mpr ⟨_, hb', rfl⟩) hn.1
          · rcases List.mem_cons.mp hb with rfl | hb'
            · exact absurd (List.mem_map.mpr ⟨_, ha', rfl⟩) hn.1
            · exact ih hn.2 a b ha' hb'
      have := hinj g2 _ _ h1 h2
      cases this; rfl
    · exact absurd h2 (g3 _ _ _ _ _ h1)
    · exact absurd h1 (g3 _ _ _ _ _ h2)
    · exact d3 _ _ _ _ _ h2 h1

/-- After startup every vector of a task is enabled and has its priority: a pending interrupt of a task is not forgotten. -/
theorem C53_all_vectors_enabled (h : expand tg bits raw = .ok p) {s : St} (hr : Reach tg p s) (hdone : s.todo = []) :
    s.masked = false ∧ ∀ v q, ((∃ t, (v, q, t) ∈ p.hwHandlers) ∨ ∃ ts, (some v, q, ts) ∈ p.dispatchers) → (v, q) ∈ s.prio ∧ (v ∈ s.unmasked ∨ tg.isException v = true) := by
  obtain ⟨A, E, last, hm, hA, hE, hl, hP, hU, -⟩ := main_shape h
  obtain ⟨done, hi⟩ := inv_reach hr
  have hd : done = p.main := by rw [hi.split, hdone]; simp
  obtain ⟨-, -, f3, f4, -⟩ := replay_facts done
  obtain ⟨e1, e2, e3, -⟩ := hi.st
  constructor
  · rw [e1, hd, hm]
    have : replay ((.disableInterrupts :: A ++ [.callInit] ++ E) ++ .enableInterrupts :: [last])
        = execStmt (execStmt (replay (.disableInterrupts :: A ++ [.callInit] ++ E)) .enableInterrupts) last := by simp [replay]
    rw [this]
    rcases hl with rfl | rfl | ⟨n, rfl⟩ <;> rfl
  · intro v q hv
    have hin : ∀ x ∈ A, x ∈ done := by intro x hx; rw [hd, hm]; simp [hx]
    refine ⟨by rw [e2, f4]; exact hin _ ((hP v q).mpr hv), ?_⟩
    cases hex : tg.isException v
    · left
      rw [e3, f3]
      refine hin _ ((hU v).mpr ?_)
      rcases hv with ⟨t, ht⟩ | ⟨ts, ht⟩
      · exact .inl ⟨q, t, ht, hex⟩
      · exact .inr ⟨q, ts, ht⟩
    · exact .inr rfl

theorem main_last (h : expand tg bits raw = .ok p) : ∃ app pre, Says raw app ∧ p.main = pre ++ [lastStmt app] := by
  obtain ⟨app, base, an, he⟩ := expand_ok h
  exact ⟨app, _, he.says, (codegen_ok he.codegen).main⟩

/-- At the end of startup the thread calls `idle` if there is one, the dispatcher of the software tasks of priority 0 if there are any, and otherwise spins. -/
theorem C53_thread (h : expand tg bits raw = .ok p) {s : St} (hr : Reach tg p s) (hdone : s.todo = []) :
    (∀ t q args, TaskIs raw t .idle q args → s.thread = .idle t) ∧ (∀ t args, TaskIs raw t .software 0 args → s.thread = .zeroDispatcher) ∧
    ((∀ t q args, ¬ TaskIs raw t .idle q args) → (∀ t args, ¬ TaskIs raw t .software 0 args) → s.thread = .spin) := by
  obtain ⟨app, pre, hs, hm⟩ := main_last h
  obtain ⟨done, hi⟩ := inv_reach hr
  have hd : done = p.main := by rw [hi.split, hdone]; simp
  have hz := ((C84_accepted_iff _ _ _).mp ⟨p, h⟩).uses.zero
  obtain ⟨-, -, -, -, -, e⟩ := hi.st
  rw [e, hd, hm, replay_snoc]
  refine ⟨?_, ?_, ?_⟩
  · intro t q args ht
    obtain ⟨sh, lo, -, hk⟩ := hs.task _ _ _ _ ht
    rcases hk with ⟨i, h1, rfl, -⟩ | ⟨i, -, -, h3, -⟩ | ⟨i, -, -, h3, -⟩
    · simp only [lastStmt, h1, execStmt]
    · cases h3
    · cases h3
  · intro t args ht
    cases hid : app.idle with
    | some i => obtain ⟨args', hi', -⟩ := hs.idle i hid; exact absurd hi' (hz _ _ _ _ _ ht)
    | none =>
      obtain ⟨sh, lo, -, hk⟩ := hs.task _ _ _ _ ht
      rcases hk with ⟨i, -, -, -, h3, -⟩ | ⟨i, -, -, h3, -⟩ | ⟨i, h1, h2, -⟩
      · cases h3
      · cases h3
      · have : (app.sw.any fun nt => nt.2.priority = 0) = true := List.any_eq_true.mpr ⟨_, h1, by simp [← h2]⟩
        simp only [lastStmt, hid, this, execStmt, if_true]
  · intro h1 h2
    cases hid : app.idle with
    | some i => obtain ⟨args', hi', -⟩ := hs.idle i hid; exact absurd hi' (h1 _ _ _)
    | none =>
      have : (app.sw.any fun nt => nt.2.priority = 0) = false := by
        rw [List.any_eq_false]
        intro nt hnt hp
        obtain ⟨args, ht, -⟩ := hs.sw nt.1 nt.2 hnt
        rw [of_decide_eq_true hp] at ht
        exact h2 _ _ ht
      simp only [lastStmt, hid, this, execStmt, Bool.false_eq_true, if_false]

/-- After startup nothing stands in the way of any task: hardware tasks run when their interrupt, software tasks when the interrupt their `spawn` pends is pending; `idle`, or the software tasks of priority 0, run in thread mode. -/
theorem C53_every_task_runs (h : expand tg bits raw = .ok p) {s : St} (hr : Reach tg p s) (hdone : s.todo = []) {t : Ident} {k : Kind} {q : Nat} {args : List TaskArg} (ht : TaskIs raw t k q args) :
    (∀ v, k = .hardware v → v ∈ s.pending → Step tg p s (.run t (some (v, q))) s) ∧ (k = .idle → Step tg p s (.run t none) s) ∧
    (k = .software → ∃ o, (t, o) ∈ p.pends ∧ ((o = none ∧ q = 0 ∧ Step tg p s (.run t none) s) ∨ ∃ v, o = some v ∧ 0 < q ∧ (v ∈ s.pending → Step tg p s (.run t (some (v, q))) s))) := by
  obtain ⟨hmask, hen⟩ := C53_all_vectors_enabled h hr hdone
  obtain ⟨t1, t2, -⟩ := C53_thread h hr hdone
  refine ⟨?_, ?_, ?_⟩
  · rintro v rfl hp
    obtain ⟨app, base, an, he⟩ := expand_ok h
    obtain ⟨x, hx, rfl, rfl⟩ := hw_of_task he.says ht
    have hh : (x.binds, x.priority, t) ∈ p.hwHandlers := by rw [(codegen_ok he.codegen).hw]; exact List.mem_map.mpr ⟨_, hx, rfl⟩
    exact .hardware _ _ _ hh ⟨hmask, hp, (hen _ _ (.inl ⟨_, hh⟩)).2⟩
  · rintro rfl
    exact .idle _ (t1 _ _ _ ht)
  · rintro rfl
    obtain ⟨o, ts, hm, hts, hpd, -⟩ := C44_task_polled_by_own_dispatcher h ht
    refine ⟨o, (hpd o).mpr rfl, ?_⟩
    cases o with
    | none =>
      obtain rfl := (C44_one_dispatcher_per_priority h).2.2.2.2 _ _ hm
      exact .inl ⟨rfl, rfl, .zero _ _ _ hm hts (t2 _ _ ht)⟩
    | some v => exact .inr ⟨v, rfl, ((C44_one_dispatcher_per_priority h).2.2.2.1 _ _ _ hm).2, fun hp => .software _ _ _ _ hm hts ⟨hmask, hp, (hen _ _ (.inr ⟨_, hm⟩)).2⟩⟩

/-- Startup goes on to its end: until then `main` has a next statement it can execute, or is in `init`, which may return. -/
theorem C53_startup_proceeds {s : St} (hdone : s.todo ≠ []) : (∃ s', Step tg p s .exec s' ∧ s'.todo.length < s.todo.length) ∨ s.inInit = true ∧ ∃ s', Step tg p s .initReturns s' ∧ s'.inInit = false ∧ s'.todo = s.todo := by
  cases hin : s.inInit with
  | true => exact .inr ⟨rfl, _, .initReturns hin, rfl, rfl⟩
  | false =>
    cases ht : s.todo with
    | nil => exact absurd ht hdone
    | cons st rest =>
      refine .inl ⟨_, .exec st rest ht hin, ?_⟩
      cases st <;> simp [execStmt]

/-- the example: interrupt 60 becomes pending while `init` runs; its task runs after startup (and only then) -/
theorem example_run : ∃ s, Reach exTarget exProg s ∧ Step exTarget exProg s (.run 20 (some (60, 2))) s := by
  have r0 : Reach exTarget exProg _ := .start
  have r1 := r0.step (.exec _ _ rfl rfl)
  have r2 := r1.step (.exec _ _ rfl rfl)
  have r3 := r2.step (.exec _ _ rfl rfl)
  have r4 := r3.step (.exec _ _ rfl rfl)
  have r5 := r4.step (.exec _ _ rfl rfl)
  have r6 := r5.step (.exec _ _ rfl rfl)
  have r7 := r6.step (.exec _ _ rfl rfl)
  have r8 := r7.step (.exec _ _ rfl rfl)
  have r9 := r8.step (.exec _ _ rfl rfl)
  have r10 := r9.step (.exec _ _ rfl rfl)
  have r11 := r10.step (.pend 60 (by decide))
  have r12 := r11.step (.initReturns rfl)
  have r13 := r12.step (.exec _ _ rfl rfl)
  have r14 := r13.step (.exec _ _ rfl rfl)
  have r15 := r14.step (.exec _ _ rfl rfl)
  have r16 := r15.step (.exec _ _ rfl rfl)
  have r17 := r16.step (.exec _ _ rfl rfl)
  exact ⟨_, r17, .hardware 60 2 20 (by decide) ⟨rfl, by decide, .inl (by decide)⟩⟩

/-- the example, after startup: `idle` has been called -/
theorem example_idle : ∃ s, Reach exTarget exProg s ∧ s.todo = [] ∧ s.thread = .idle 4 := by
  have r0 : Reach exTarget exProg _ := .start
  have r1 := r0.step (.exec _ _ rfl rfl)
  have r2 := r1.step (.exec _ _ rfl rfl)
  have r3 := r2.step (.exec _ _ rfl rfl)
  have r4 := r3.step (.exec _ _ rfl rfl)
  have r5 := r4.step (.exec _ _ rfl rfl)
  have r6 := r5.step (.exec _ _ rfl rfl)
  have r7 := r6.step (.exec _ _ rfl rfl)
  have r8 := r7.step (.exec _ _ rfl rfl)
  have r9 := r8.step (.exec _ _ rfl rfl)
  have r10 := r9.step (.exec _ _ rfl rfl)
  have r11 := r10.step (.pend 60 (by decide))
  have r12 := r11.step (.initReturns rfl)
  have r13 := r12.step (.exec _ _ rfl rfl)
  have r14 := r13.step (.exec _ _ rfl rfl)
  have r15 := r14.step (.exec _ _ rfl rfl)
  have r16 := r15.step (.exec _ _ rfl rfl)
  have r17 := r16.step (.exec _ _ rfl rfl)
  have r18 := r17.step (.exec _ _ rfl rfl)
  exact ⟨_, r18, rfl, rfl⟩

end Verif.Startup
