import Verif.MaskSystem.Cases

/-!
# C91: the conditions on the tasks of lower priority cannot be weakened

`C91_spawned_preempts_partial` needs the interrupt of the dispatcher to be in the same register as those of the tasks of lower priority, none of which may be bound to an exception. Here: in every application in which a hardware task of lower priority than a dispatcher is bound to an interrupt of another register or to an exception, `idle` locks a resource of at least the priority of the dispatcher (below 4), and some hardware task is more
urgent than the ceiling of this resource, a successful `spawn` does not preempt: the task of lower priority can be started after the call has returned and before the spawned task is polled.
-/

namespace Verif.MaskSystem

open Verif

/-- nothing is pending and no executor has been touched -/
structure Still (s : St) : Prop where
  pend : s.pend = fun _ => false
  ex : s.ex = fun _ => Executor.init

theorem Still.pended {c : Cfg} {s : St} (h : Still s) (k : Nat) : pended c s k = false := by
  unfold MaskSystem.pended
  split
  · rw [h.ex]; rfl
  · rw [h.pend]

theorem Still.quiet {c : Cfg} {s : St} (h : Still s) : quiet c s := fun k hk => by
  have := hk.2.1
  rw [h.pended] at this; cases this

theorem Still.noCall {s : St} (h : Still s) : noCall s := fun d => by rw [h.ex]; rfl

/-- an execution from `st` in which nothing gets pending, to a state with stack `l` -/
def Gets (c : Cfg) (st : St) (l : List SourceMask.Rec) : Prop := ∃ as s, Exec c st as [] s ∧ Still s ∧ s.m.stack = l

/-- steps of the kind used: neither an interrupt, nor a return, nor `NVIC::mask`; a lock by idle only -/
structure Plainly (l : List SourceMask.Rec) (a : SourceMask.Act) : Prop where
  irq : ∀ t, a ≠ .irq t
  mask : ∀ n, a ≠ .nvicMask n
  ret : a ≠ .ret
  cs : a ≠ .userCs
  lock : ∀ r, a = .lock r → SourceMask.inCode l = true ∧ SourceMask.top l = some 0

theorem acc_plainly (l : List SourceMask.Rec) : Plainly l .acc := ⟨by simp, by simp, by simp, by simp, by simp⟩
theorem unlock_plainly (l : List SourceMask.Rec) : Plainly l .unlock := ⟨by simp, by simp, by simp, by simp, by simp⟩

theorem Gets.step {c : Cfg} (ht0 : c.tasks 0 = none) {st : St} {l l' : List SourceMask.Rec} (h : Gets c st l) (hs : ∀ m : SourceMask.St, m.stack = l → ∃ a m', SourceMask.Step c.sm m a m' ∧ Plainly l a ∧ m'.stack = l') : Gets c st l' := by
  obtain ⟨as, s, hx, hq, h1⟩ := h
  obtain ⟨a, m', h2, h3, h4⟩ := hs s.m h1
  refine ⟨as ++ [.code a], { s with m := m' }, .snoc (tr := []) (ev := []) hx (.code a m' hq.quiet hq.noCall h2 h3.irq h3.mask ?_ fun h => absurd h h3.ret), ⟨hq.pend, hq.ex⟩, h4⟩
  rintro (⟨r, rfl⟩ | rfl)
  · obtain ⟨h5, h6⟩ := h3.lock r rfl
    rw [← h1] at h5 h6
    refine ⟨h5, fun h ts ht hts => ?_⟩
    rw [h6] at ht; cases ht
    rw [ht0] at hts; cases hts
  · exact absurd rfl h3.cs

theorem gets_cl {c : Cfg} (ht0 : c.tasks 0 = none) {s : St} {r : Nat} {old : SourceMask.Regs} {rest : List SourceMask.Rec} (h : Gets c s (.cl r 0 old :: rest)) : ∀ j, j ≤ SourceMask.nChunks c.sm.irqs → Gets c s (.cl r j old :: rest) := by
  intro j
  induction j with
  | zero => exact fun _ => h
  | succ j ih => exact fun hj => (ih (by omega)).step ht0 fun s1 h1 => ⟨_, _, .cl r j old rest h1 (by omega), acc_plainly _, rfl⟩

theorem gets_st {c : Cfg} (ht0 : c.tasks 0 = none) {s : St} {r : Nat} {old : SourceMask.Regs} {rest : List SourceMask.Rec} (h : Gets c s (.st r 0 old :: rest)) : ∀ j, j ≤ SourceMask.nChunks c.sm.irqs → Gets c s (.st r j old :: rest) := by
  intro j
  induction j with
  | zero => exact fun _ => h
  | succ j ih => exact fun hj => (ih (by omega)).step ht0 fun s1 h1 => ⟨_, _, .st r j old rest h1 (by omega), acc_plainly _, rfl⟩

theorem gets_rd {c : Cfg} {s : St} {r : Nat} {rest : List SourceMask.Rec} (h : ∃ old, Gets c s (.rd r 0 old :: rest)) : ∀ j, j ≤ SourceMask.nChunks c.sm.irqs → ∃ old, Gets c s (.rd r j old :: rest) := by
  intro j
  induction j with
  | zero => exact fun _ => h
  | succ j ih =>
    intro hj
    obtain ⟨old, as, s1, hx, hq, h1⟩ := ih (by omega)
    exact ⟨SourceMask.guardUpd (c.sm.m r j) old j (s1.m.en j), as ++ [.code .acc], { s1 with m := { s1.m with stack := .rd r (j + 1) (SourceMask.guardUpd (c.sm.m r j) old j (s1.m.en j)) :: rest } },
      .snoc (tr := []) (ev := []) hx (.code .acc _ hq.quiet hq.noCall (.rd r j old rest h1 (by omega : j < SourceMask.nChunks c.sm.irqs)) (by simp) (by simp) (by simp) (by simp)), ⟨hq.pend, hq.ex⟩, rfl⟩

/-- idle begins to lock `r` and has masked the chunks below `j` -/
theorem gets_half_locked {c : Cfg} (ht0 : c.tasks 0 = none) {r : Nat} (hu : c.sm.uses 0 r) (hr : ¬ c.sm.ceil r ≥ 4) {st : St} (hst : Still st) (h0 : st.m.stack = [.body 0]) : ∃ old, ∀ j, j ≤ SourceMask.nChunks c.sm.irqs → Gets c st [.cl r j old, .body 0] := by
  have g0 : Gets c st [.body 0] := ⟨[], st, .nil _, hst, h0⟩
  have g1 : Gets c st [.rd r 0 (fun _ => 0#32), .body 0] :=
    g0.step ht0 fun m hm => ⟨_, _, .lock 0 r (by rw [hm]; rfl) (by rw [hm]; rfl) hu hr, ⟨by simp, by simp, by simp, by simp, fun _ _ => ⟨rfl, rfl⟩⟩, by simp [hm]⟩
  obtain ⟨old, h⟩ := gets_rd ⟨_, g1⟩ (SourceMask.nChunks c.sm.irqs) (Nat.le_refl _)
  exact ⟨old, gets_cl ht0 (h.step ht0 fun s1 h1 => ⟨_, _, .rdEnd r _ old _ h1 (by omega), acc_plainly _, rfl⟩)⟩

/-- idle releases `r` and has restored the chunks below `j` -/
theorem gets_half_unlocked {c : Cfg} (ht0 : c.tasks 0 = none) {r : Nat} (hu : c.sm.uses 0 r) (hr : ¬ c.sm.ceil r ≥ 4) {st : St} (hst : Still st) (h0 : st.m.stack = [.body 0]) : ∃ old, ∀ j, j ≤ SourceMask.nChunks c.sm.irqs → Gets c st [.st r j old, .body 0] := by
  obtain ⟨old, h⟩ := gets_half_locked ht0 hu hr hst h0
  refine ⟨old, gets_st ht0 ?_⟩
  exact ((h _ (Nat.le_refl _)).step ht0 fun s1 h1 => ⟨_, _, .clEnd r _ old _ h1 (by omega), acc_plainly _, rfl⟩).step ht0 fun s1 h1 => ⟨_, _, .unlock r old _ h1, unlock_plainly _, rfl⟩

/-- `s` with interrupt `k` served by its handler on top, which is inside a call to dispatcher `d`, whose executor is `e` -/
def inCall (s : St) (d k : Nat) (e : Executor.St) : St := { m := { s.m with stack := .body k :: s.m.stack }, pend := fun _ => false, ex := upd s.ex d e }

theorem inCall_quiet {c : Cfg} {s : St} (h : Still s) {d k : Nat} {e : Executor.St} (he : e.irq = false) : quiet c (inCall s d k e) := by
  intro h' hk
  have hp := hk.2.1
  unfold pended at hp
  split at hp
  · by_cases hd : h' = d
    · subst hd; simp [inCall, upd, he] at hp
    · simp [inCall, upd, hd, h.ex, Executor.init] at hp
  · simp [inCall] at hp

theorem inCall_user {c : Cfg} {s : St} {d k : Nat} (hk : c.tasks k = none) {e : Executor.St} : userCode c (inCall s d k e) := by
  refine ⟨rfl, fun h ts ht hts => ?_⟩
  have : k = h := by simpa [inCall, SourceMask.top] using ht
  subst this
  rw [hk] at hts; cases hts

theorem inCall_call {c : Cfg} {s : St} (hs : Still s) {d k : Nat} (hk : c.tasks k = none) {ts : List Nat} (hd : c.tasks d = some ts) {e e' : Executor.St} {ev : List Executor.Ev} (he : e.irq = false)
    (h : Executor.step (c.exec d ts) e (.thr (depth s.m.stack + 1)) = some (e', ev)) : Step c (inCall s d k e) (.call d) (ev.map (d, ·)) (inCall s d k e') := by
  have := Step.call (c := c) (s := inCall s d k e) d ts e' ev (inCall_quiet hs he) (inCall_user hk) hd (by simpa [inCall, upd, depth] using h)
  have hm : ({ inCall s d k e with ex := upd (inCall s d k e).ex d e' } : St) = inCall s d k e' := by
    simp only [inCall, St.mk.injEq, true_and]
    funext i; simp only [upd]; split <;> rfl
  rw [hm] at this
  exact this

/-- **C91** (the conditions on the interrupts of the tasks of lower priority cannot be weakened) Take any application with the following parts: a dispatcher `d` of a task `u`; a hardware task `t'` of lower priority, whose interrupt is in another register than that of `d`, or that is bound to an exception; a resource that idle locks, with a ceiling of at least the priority of `d` (less than 4, otherwise all interrupts are disabled); and a
hardware task `k` whose priority is above this ceiling. Then it has an execution from an idle start in which `k` calls `spawn` of `u` successfully, and after this call has returned, and before the spawned task is polled, `t'` is started. -/
theorem C91_not_plain_violated {c : Cfg} (hwf : SourceMask.WellFormed c.sm) {e0 : SourceMask.Regs} (h0 : c.sm.prio 0 = 0) (ht0 : c.tasks 0 = none) (huniq : ∀ p q n, (p, n) ∈ c.sm.irqs → (q, n) ∈ c.sm.irqs → p = q)
    {d t' k n r u a : Nat} {ts : List Nat} (hur : c.sm.uses 0 r) (hr : c.sm.ceil r < 4) (hd : c.tasks d = some ts) (hu : u ∈ ts) (hdr : c.sm.prio d ≤ c.sm.ceil r)
    (hlow : 1 ≤ c.sm.prio t') (hlt : c.sm.prio t' < c.sm.prio d) (ht' : c.tasks t' = none) (hk : c.tasks k = none) (hkr : c.sm.ceil r < c.sm.prio k)
    (hb : c.sm.bind d = some n) (hfree : c.sm.bind t' = none ∨ ∃ n', c.sm.bind t' = some n' ∧ n / 32 ≠ n' / 32 ∧ SourceMask.enabled e0 n' = true) (hkb : ∀ m, c.sm.bind k = some m → SourceMask.enabled e0 m = true) :
    ∃ st s0 s1 s2 s3 as0 as1 as2 tr0, Start c e0 st ∧ Exec c st as0 tr0 s0 ∧ Step c s0 (.call d) [(d, .ok u a)] s1 ∧ Exec c s1 as1 [] s2 ∧ (s2.ex d).pc (depth s0.m.stack) = .idle ∧ Exec c s2 as2 [] s3 ∧ .irq t' ∈ as2 := by
  have cover : ∀ {q m}, (q, m) ∈ c.sm.irqs → m / 32 < SourceMask.nChunks c.sm.irqs := by
    intro q m hm
    have := SourceMask.chunks_cover (ids := c.sm.irqs.map (·.2)) (b := m) (List.mem_map.2 ⟨_, hm, rfl⟩)
    unfold SourceMask.nChunks
    omega
  have hl := hwf.listed d n hb (by omega)
  have hspec : ∀ m, (c.sm.mask r).has m = true ↔ ∃ p, (p, m) ∈ c.sm.irqs ∧ p - 1 < c.sm.ceil r := by
    unfold SourceMask.Cfg.mask
    exact (SourceMask.computeMask_spec hwf.masks (by omega)).2
  have hmask : (c.sm.mask r).has n = true := (hspec n).2 ⟨_, hl, by omega⟩
  have hkmask : ∀ m, c.sm.bind k = some m → (c.sm.mask r).has m ≠ true := by
    intro m hm h
    obtain ⟨p, hp, hlt⟩ := (hspec m).1 h
    have := huniq _ _ _ hp (hwf.listed k m hm (by omega))
    omega
  let st : St := { m := SourceMask.start 0 e0, pend := fun _ => false, ex := fun _ => Executor.init }
  have hst : Start c e0 st := ⟨rfl, fun _ _ _ => ⟨[], [], by simp, rfl⟩, fun _ _ => rfl⟩
  have hstill : Still st := ⟨rfl, rfl⟩
  -- it suffices to reach a state in which the lock of idle masks the dispatcher and neither `t'` nor `k`
  have main : ∀ x, (∀ t, x ≠ .body t) → (∀ r m, x ≠ .cs r m) → SourceMask.top [x, .body 0] = some 0 → SourceMask.Masks c.sm n x → (∀ m, c.sm.bind t' = some m → SourceMask.enabled e0 m = true ∧ ¬ SourceMask.Masks c.sm m x) → (∀ m, c.sm.bind k = some m → ¬ SourceMask.Masks c.sm m x) → Gets c st [x, .body 0] →
      ∃ st s0 s1 s2 s3 as0 as1 as2 tr0, Start c e0 st ∧ Exec c st as0 tr0 s0 ∧ Step c s0 (.call d) [(d, .ok u a)] s1 ∧ Exec c s1 as1 [] s2 ∧ (s2.ex d).pc (depth s0.m.stack) = .idle ∧ Exec c s2 as2 [] s3 ∧ .irq t' ∈ as2 := by
    rintro x hnb hncs htop hM hM' hMk ⟨as, s, hx, hs, hstk⟩
    have hi := inv_exec hwf (inv_start h0 hst) hx
    have hdep : depth s.m.stack = 1 := by
      rw [hstk]
      cases x with
      | body t => exact absurd rfl (hnb t)
      | _ => rfl
    have on : ∀ m, SourceMask.enabled e0 m = true → ¬ SourceMask.Masks c.sm m x → SourceMask.enabled s.m.en m = true := by
      intro m hm hx
      rw [hi.exact.en, hstk]
      refine SourceMask.exp_enabled hm fun y hy => ?_
      rcases List.mem_cons.1 hy with rfl | hy
      · exact hx
      · simp only [List.mem_singleton] at hy; subst hy; exact id
    have en : SourceMask.enabled s.m.en n = false := by rw [hi.exact.en, hstk]; exact SourceMask.exp_disabled hM hncs
    have pm : s.m.pm = false := by
      rw [hi.m.pm, hstk]
      refine SourceMask.masked_false_of fun r m hm => ?_
      rcases List.mem_cons.1 hm with h | hm
      · exact hncs r m h.symm
      · simp at hm
    have hdk : d ≠ k := by rintro rfl; omega
    -- `k` is pended and started
    let sA : St := { s with pend := upd s.pend k true }
    have hadm : SourceMask.admits c.sm s.m 0 k := ⟨pm, by omega, fun m hm => on m (hkb m hm) (hMk m hm)⟩
    have x1 : Exec c st (as ++ [.hw k]) [] sA := .snoc (tr := []) (ev := []) hx (.hw k hk)
    have hpA : ∀ h', pended c sA h' = true → h' = k := by
      intro h' hp
      unfold pended at hp
      split at hp
      · simp [sA, hs.ex, Executor.init] at hp
      · rcases Decidable.em (h' = k) with h | h
        · exact h
        · simp [sA, upd, h, hs.pend] at hp
    have x2 : Exec c st (as ++ [.hw k] ++ [.irq k]) [] (inCall s d k (s.ex d)) := by
      have h : Step c sA (.irq k) [] _ := .irqHw k { s.m with stack := .body k :: s.m.stack } hk ⟨by omega, by simp [pended, hk, sA, upd], 0, by rw [show sA.m = s.m from rfl, hstk]; exact htop, hadm⟩
        (fun h' hh => by rw [hpA h' hh.2.1]; exact Nat.le_refl _) (.irq k 0 (by rw [show sA.m = s.m from rfl, hstk]; exact htop) hadm)
      have hm : ({ sA with m := { s.m with stack := .body k :: s.m.stack }, pend := upd sA.pend k false } : St) = inCall s d k (s.ex d) := by
        simp only [inCall, St.mk.injEq, true_and]
        refine ⟨?_, ?_⟩
        · funext i; simp only [upd, sA, hs.pend]; split <;> rfl
        · funext i; simp only [upd]; split
          · next h => subst h; rfl
          · rfl
      rw [hm] at h
      exact .snoc (tr := []) (ev := []) x1 h
    -- it calls `spawn`
    let e1 : Executor.St := { Executor.init with pc := Executor.upd Executor.init.pc 2 (.s1 u a) }
    let e2 : Executor.St := { e1 with running := Executor.upd e1.running u true, pc := Executor.upd e1.pc 2 (.s2 u a) }
    let e3 : Executor.St := { e2 with slot := Executor.upd e2.slot u (.fresh a), pc := Executor.upd e2.pc 2 (.s3 u) }
    let e4 : Executor.St := { e3 with pending := Executor.upd e3.pending u true, pc := Executor.upd e3.pc 2 (.p u) }
    let e5 : Executor.St := { e4 with irq := true, pc := Executor.upd e4.pc 2 .idle }
    have x3 : Exec c st (as ++ [.hw k] ++ [.irq k] ++ [.spawn d u a]) [] (inCall s d k e1) := by
      have h : Step c (inCall s d k (s.ex d)) (.spawn d u a) _ _ := .spawn d ts u a e1 [] (inCall_quiet hs (by rw [hs.ex]; rfl)) (fun i => by by_cases h : i = d <;> simp [inCall, upd, h, hs.ex, Executor.init]) (inCall_user hk) hd
        (by rw [show (inCall s d k (s.ex d)).ex d = Executor.init by simp [inCall, upd, hs.ex], show depth (inCall s d k (s.ex d)).m.stack = 2 by simp [inCall, depth, hdep]]; simp [Executor.step, Executor.init, e1, Cfg.exec, hu])
      have hm : ({ inCall s d k (s.ex d) with ex := upd (inCall s d k (s.ex d)).ex d e1 } : St) = inCall s d k e1 := by
        simp only [inCall, St.mk.injEq, true_and]
        funext i; simp only [upd]; split <;> rfl
      rw [hm] at h
      exact .snoc (tr := []) (ev := []) x2 h
    have c1 : Step c (inCall s d k e1) (.call d) [(d, .ok u a)] (inCall s d k e2) := inCall_call (ev := [.ok u a]) hs hk hd rfl (by rw [hdep]; simp [Executor.step, Executor.stepThr, e1, e2, Executor.init, Executor.upd])
    have c2 : Step c (inCall s d k e2) (.call d) [] (inCall s d k e3) := inCall_call (ev := []) hs hk hd rfl (by rw [hdep]; simp [Executor.step, Executor.stepThr, e1, e2, e3, Executor.init, Executor.upd])
    have c3 : Step c (inCall s d k e3) (.call d) [] (inCall s d k e4) := inCall_call (ev := []) hs hk hd rfl (by rw [hdep]; simp [Executor.step, Executor.stepThr, e1, e2, e3, e4, Executor.init, Executor.upd])
    have c4 : Step c (inCall s d k e4) (.call d) [] (inCall s d k e5) := inCall_call (ev := []) hs hk hd rfl (by rw [hdep]; simp [Executor.step, Executor.stepThr, e1, e2, e3, e4, e5, Executor.init, Executor.upd])
    have x4 : Exec c (inCall s d k e2) [.call d, .call d, .call d] [] (inCall s d k e5) := .snoc (as := [.call d, .call d]) (tr := []) (ev := []) (.snoc (as := [.call d]) (tr := []) (ev := []) (.snoc (as := []) (tr := []) (ev := []) (.nil _) c2) c3) c4
    -- `t'` gets pending, `k` returns
    let sC : St := { inCall s d k e5 with pend := upd (inCall s d k e5).pend t' true }
    have hpC : ∀ h', (match c.tasks h' with | some _ => (sC.ex h').irq | none => sC.pend h') = true → h' = d ∨ h' = t' := by
      intro h' hp
      split at hp
      · rcases Decidable.em (h' = d) with h | h
        · exact .inl h
        · simp [sC, inCall, upd, h, hs.ex, Executor.init] at hp
      · rcases Decidable.em (h' = t') with h | h
        · exact .inr h
        · simp [sC, inCall, upd, h] at hp
    have y1 : Step c (inCall s d k e5) (.hw t') [] sC := .hw t' ht'
    have hqC : quiet c sC := by
      rintro h' ⟨-, hp, cur, hc, ha⟩
      have : k = cur := by simpa [sC, inCall, SourceMask.top] using hc
      subst this
      have := ha.2.1
      rcases hpC h' hp with rfl | rfl <;> omega
    have hpcC : noCall sC := by
      intro i
      rcases Decidable.em (i = d) with h | h
      · subst h; simp [sC, inCall, upd, e5, e4, e3, e2, e1, Executor.upd, depth, hdep]
      · simp [sC, inCall, upd, h, hs.ex, Executor.init]
    let sD : St := { sC with m := s.m }
    have y2 : Step c sC (.code .ret) [] sD := by
      refine .code .ret s.m hqC hpcC (.ret k s.m.stack rfl ?_) (by simp) (by simp) (by simp) ?_
      · rw [hstk]; simp
      · intro _ h ts' hh hts
        have : k = h := by simpa [sC, inCall, SourceMask.top] using hh
        subst this
        rw [hk] at hts; cases hts
    -- `t'` is started
    have hadm' : SourceMask.admits c.sm s.m 0 t' := ⟨pm, by omega, fun m hm => on m (hM' m hm).1 (hM' m hm).2⟩
    have htop' : SourceMask.top sD.m.stack = some 0 := by rw [show sD.m = s.m from rfl, hstk]; exact htop
    have y3 : Step c sD (.irq t') [] { sD with m := { s.m with stack := .body t' :: s.m.stack }, pend := upd sD.pend t' false } := by
      refine .irqHw t' { s.m with stack := .body t' :: s.m.stack } ht' ⟨hlow, by simp [pended, ht', sD, sC, upd], 0, htop', hadm'⟩ ?_ (.irq t' 0 htop' hadm')
      rintro h' ⟨-, hp, cur, hc, ha⟩
      rcases hpC h' hp with rfl | rfl
      · exact absurd (ha.2.2 n hb) (by rw [show sD.m = s.m from rfl, en]; simp)
      · exact Nat.le_refl _
    refine ⟨st, inCall s d k e1, inCall s d k e2, inCall s d k e5, _, _, _, [.hw t', .code .ret, .irq t'], [], hst, x3, c1, x4, ?_, .snoc (as := [.hw t', .code .ret]) (tr := []) (ev := []) (.snoc (as := [.hw t']) (tr := []) (ev := []) (.snoc (as := []) (tr := []) (ev := []) (.nil _) y1) y2) y3, by simp⟩
    simp [inCall, upd, depth, hdep, e5, Executor.upd]
  have half : (∀ m, c.sm.bind t' = some m → SourceMask.enabled e0 m = true ∧ n / 32 < m / 32) →
      ∃ st s0 s1 s2 s3 as0 as1 as2 tr0, Start c e0 st ∧ Exec c st as0 tr0 s0 ∧ Step c s0 (.call d) [(d, .ok u a)] s1 ∧ Exec c s1 as1 [] s2 ∧ (s2.ex d).pc (depth s0.m.stack) = .idle ∧ Exec c s2 as2 [] s3 ∧ .irq t' ∈ as2 := fun hm => by
    obtain ⟨old, hg⟩ := gets_half_locked ht0 hur (by omega) hstill rfl
    exact main (.cl r (n / 32 + 1) old) (by simp) (by simp) rfl ⟨by omega, hmask⟩ (fun m hb => ⟨(hm m hb).1, fun hx => by have := hx.1; have := (hm m hb).2; omega⟩) (fun m hm h => hkmask m hm h.2) (hg _ (by have := cover hl; omega))
  rcases hfree with hb' | ⟨n', hb', hreg, h0'⟩
  · exact half (by simp [hb'])
  have hl' := hwf.listed t' n' hb' hlow
  have only : ∀ m, c.sm.bind t' = some m → m = n' := fun m hm => by rw [hb'] at hm; exact (Option.some.inj hm).symm
  rcases Nat.lt_or_gt_of_ne hreg with h | h
  · exact half fun m hm => by obtain rfl := only m hm; exact ⟨h0', h⟩
  · obtain ⟨old, hg⟩ := gets_half_unlocked ht0 hur (by omega) hstill rfl
    exact main (.st r (n' / 32 + 1) old) (by simp) (by simp) rfl ⟨by omega, hmask⟩ (fun m hb => by obtain rfl := only m hb; exact ⟨h0', fun hm => by have := hm.1; omega⟩) (fun m hm h => hkmask m hm h.2) (hg _ (by have := cover hl'; omega))

/-- the hypotheses are met by `twoRegs` -/
example : ∃ st s0 s1 s2 s3 as0 as1 as2 tr0, Start twoRegs allOn st ∧ Exec twoRegs st as0 tr0 s0 ∧ Step twoRegs s0 (.call 2) [(2, .ok 7 5)] s1 ∧ Exec twoRegs s1 as1 [] s2 ∧ (s2.ex 2).pc (depth s0.m.stack) = .idle ∧ Exec twoRegs s2 as2 [] s3 ∧ .irq 1 ∈ as2 := by
  refine C91_not_plain_violated (k := 3) (n := 5) (r := 10) (ts := [7]) (case_wf (by decide) (by simp) (by simp) (by simp)) rfl rfl ?_ ⟨rfl, .inl rfl⟩ (by decide) rfl (by simp) (by decide) (by decide) (by decide) rfl rfl (by decide) rfl (.inr ⟨40, rfl, by decide, by decide⟩) ?_
  · intro p q n h1 h2
    simp only [twoRegs, caseCfg, List.mem_cons, Prod.mk.injEq, List.not_mem_nil, or_false] at h1 h2
    omega
  · intro m hm
    simp [twoRegs, caseCfg] at hm
    subst hm
    decide

/-- the hypotheses are met by `exception` -/
example : ∃ st s0 s1 s2 s3 as0 as1 as2 tr0, Start exception allOn st ∧ Exec exception st as0 tr0 s0 ∧ Step exception s0 (.call 2) [(2, .ok 7 5)] s1 ∧ Exec exception s1 as1 [] s2 ∧ (s2.ex 2).pc (depth s0.m.stack) = .idle ∧ Exec exception s2 as2 [] s3 ∧ .irq 1 ∈ as2 := by
  refine C91_not_plain_violated (k := 3) (n := 5) (r := 10) (ts := [7]) (case_wf (by decide) (by simp) (by simp) (by simp)) rfl rfl ?_ ⟨rfl, .inl rfl⟩ (by decide) rfl (by simp) (by decide) (by decide) (by decide) rfl rfl (by decide) rfl (.inl rfl) ?_
  · intro p q n h1 h2
    simp only [exception, caseCfg, List.mem_cons, Prod.mk.injEq, List.not_mem_nil, or_false] at h1 h2
    omega
  · intro m hm
    simp [exception, caseCfg] at hm
    subst hm
    decide

end Verif.MaskSystem
