import Verif.SourceMask.Blocking

/-!
# C75: the register condition cannot be weakened

`C75_single_blocker_partial` and `C75_no_lower_starts_partial` need the interrupt of a task to be in the same register as those of the tasks of lower priority. Here: in every application in which the interrupts of two tasks of
different priorities are in different registers, and `idle` locks a resource of at least the higher of the two priorities (below 4), the task of lower priority can run while that of higher priority waits for the lock.
-/

namespace Verif.SourceMask

/-- an execution from `s` without calls of `NVIC::mask` to a state with stack `l` -/
def Gets (c : Cfg) (s : St) (l : List Rec) : Prop := ∃ as s', Exec c s as s' ∧ (∀ k, .nvicMask k ∉ as) ∧ s'.stack = l

theorem Gets.step {c : Cfg} {s : St} {l l' : List Rec} (h : Gets c s l) (hs : ∀ s1 : St, s1.stack = l → ∃ a s2, Step c s1 a s2 ∧ (∀ k, a ≠ .nvicMask k) ∧ s2.stack = l') : Gets c s l' := by
  obtain ⟨as, s1, hx, hn, h1⟩ := h
  obtain ⟨a, s2, h2, h3, h4⟩ := hs s1 h1
  refine ⟨as ++ [a], s2, .snoc hx h2, fun k hk => ?_, h4⟩
  rcases List.mem_append.1 hk with hk | hk
  · exact hn k hk
  · simp only [List.mem_singleton] at hk; exact h3 k hk.symm

theorem gets_cl {c : Cfg} {s : St} {r : Nat} {old : Regs} {rest : List Rec} (h : Gets c s (.cl r 0 old :: rest)) : ∀ j, j ≤ nChunks c.irqs → Gets c s (.cl r j old :: rest) := by
  intro j
  induction j with
  | zero => exact fun _ => h
  | succ j ih => exact fun hj => (ih (by omega)).step fun s1 h1 => ⟨_, _, .cl r j old rest h1 (by omega), by simp, rfl⟩

theorem gets_st {c : Cfg} {s : St} {r : Nat} {old : Regs} {rest : List Rec} (h : Gets c s (.st r 0 old :: rest)) : ∀ j, j ≤ nChunks c.irqs → Gets c s (.st r j old :: rest) := by
  intro j
  induction j with
  | zero => exact fun _ => h
  | succ j ih => exact fun hj => (ih (by omega)).step fun s1 h1 => ⟨_, _, .st r j old rest h1 (by omega), by simp, rfl⟩

theorem gets_rd {c : Cfg} {s : St} {r : Nat} {rest : List Rec} (h : ∃ old, Gets c s (.rd r 0 old :: rest)) : ∀ j, j ≤ nChunks c.irqs → ∃ old, Gets c s (.rd r j old :: rest) := by
  intro j
  induction j with
  | zero => exact fun _ => h
  | succ j ih =>
    intro hj
    obtain ⟨old, as, s1, hx, hn, h1⟩ := ih (by omega)
    refine ⟨guardUpd (c.m r j) old j (s1.en j), as ++ [.acc], _, .snoc hx (.rd r j old rest h1 (by omega)), fun k hk => ?_, rfl⟩
    rcases List.mem_append.1 hk with hk | hk
    · exact hn k hk
    · simp at hk

/-- idle begins to lock `r` and has masked the chunks below `j` -/
theorem gets_half_locked {c : Cfg} {u r : Nat} (hu : c.uses u r) (hr : ¬ c.ceil r ≥ 4) (e0 : Regs) : ∃ old, ∀ j, j ≤ nChunks c.irqs → Gets c (start u e0) [.cl r j old, .body u] := by
  obtain ⟨old, h⟩ := gets_rd (c := c) (s := start u e0) (r := r) (rest := [.body u])
    ⟨_, [] ++ [.lock r], _, .snoc (.nil _) (.lock u r rfl rfl hu hr), by simp, rfl⟩ (nChunks c.irqs) (Nat.le_refl _)
  exact ⟨old, gets_cl (h.step fun s1 h1 => ⟨_, _, .rdEnd r _ old _ h1 (by omega), by simp, rfl⟩)⟩

/-- idle releases `r` and has restored the chunks below `j` -/
theorem gets_half_unlocked {c : Cfg} {u r : Nat} (hu : c.uses u r) (hr : ¬ c.ceil r ≥ 4) (e0 : Regs) : ∃ old, ∀ j, j ≤ nChunks c.irqs → Gets c (start u e0) [.st r j old, .body u] := by
  obtain ⟨old, h⟩ := gets_half_locked hu hr e0
  refine ⟨old, gets_st ?_⟩
  exact ((h _ (Nat.le_refl _)).step fun s1 h1 => ⟨_, _, .clEnd r _ old _ h1 (by omega), by simp, rfl⟩).step fun s1 h1 => ⟨_, _, .unlock r old _ h1, by simp, rfl⟩

/-- **C75** (the condition on registers cannot be weakened) Take any application, with tasks `t` and, of lower priority, `t'`, whose interrupts `n` and `n'` are enabled and in different registers, and in which idle locks a resource with a ceiling
of at least the priority of `t` (less than 4, otherwise all interrupts are disabled). Then it has an execution without `NVIC::mask` in which `t'` is started and runs to its end while `t` waits for the lock. -/
theorem C75_other_register_violated {c : Cfg} (hwf : WellFormed c) {u t t' n n' r : Nat} {e0 : Regs} (hu : c.prio u = 0) (hur : c.uses u r) (hr : c.ceil r < 4) (ht : c.prio t ≤ c.ceil r)
    (hlow : 1 ≤ c.prio t') (hlt : c.prio t' < c.prio t) (hb : c.bind t = some n) (hb' : c.bind t' = some n') (_h0 : enabled e0 n = true) (h0' : enabled e0 n' = true) (hreg : n / 32 ≠ n' / 32) :
    ∃ as0 s0 s, Exec c (start u e0) as0 s0 ∧ (∀ k, .nvicMask k ∉ as0) ∧ Waiting c t s0 [.irq t', .ret] s := by
  have cover : ∀ {q m}, (q, m) ∈ c.irqs → m / 32 < nChunks c.irqs := by
    intro q m hm
    have := chunks_cover (ids := c.irqs.map (·.2)) (b := m) (List.mem_map.2 ⟨_, hm, rfl⟩)
    unfold nChunks
    omega
  have hl := hwf.listed t n hb (by omega)
  have hl' := hwf.listed t' n' hb' hlow
  have hmask : (c.mask r).has n = true := by
    unfold Cfg.mask
    rw [(computeMask_spec hwf.masks (by omega)).2]
    exact ⟨_, hl, by omega⟩
  -- it suffices to reach a state in which the lock of idle masks `n` and not `n'`
  have main : ∀ x, (∀ t, x ≠ .body t) → (∀ r m, x ≠ .cs r m) → top [x, .body u] = some u → Masks c n x → ¬ Masks c n' x → Gets c (start u e0) [x, .body u] →
      ∃ as0 s0 s, Exec c (start u e0) as0 s0 ∧ (∀ k, .nvicMask k ∉ as0) ∧ Waiting c t s0 [.irq t', .ret] s := by
    rintro x hnb hncs htop hM hM' ⟨as0, s0, hx, hn, hst⟩
    have i0 := inv_start (c := c) e0 hu
    have hi := inv_exec hwf hx i0
    have he := exact_exec hwf hx i0 (exact_start e0) hn
    have en : enabled s0.en n = false := by rw [he.en, hst]; exact exp_disabled hM hncs
    have en' : enabled s0.en n' = true := by
      rw [he.en, hst]
      refine exp_enabled h0' fun y hy => ?_
      rcases List.mem_cons.1 hy with rfl | hy
      · exact hM'
      · simp only [List.mem_singleton] at hy; subst hy; exact id
    have pm : s0.pm = false := by
      rw [hi.pm, hst]
      refine masked_false_of fun r m hm => ?_
      rcases List.mem_cons.1 hm with h | hm
      · exact hncs r m h.symm
      · simp at hm
    have s1 : Step c s0 (.irq t') _ := .irq t' u (by rw [hst]; exact htop) ⟨pm, by omega, fun m hm => by rw [hb'] at hm; cases hm; exact en'⟩
    refine ⟨as0, s0, _, hx, hn, .snoc (as := [] ++ [.irq t']) (.snoc (.nil _) s1 ?_ (by simp) ?_) (.ret t' s0.stack rfl (by rw [hst]; simp)) (by simp) (by simp) ?_⟩
    · intro h; cases h; omega
    · exact fun cur _ ha => absurd (ha.2.2 n hb) (by simp [en])
    · exact fun cur _ ha => absurd (ha.2.2 n hb) (by simp [en])
  rcases Nat.lt_or_gt_of_ne hreg with h | h
  · obtain ⟨old, hg⟩ := gets_half_locked hur (by omega) e0
    exact main (.cl r (n / 32 + 1) old) (by simp) (by simp) rfl ⟨by omega, hmask⟩ (fun hm => by have := hm.1; omega) (hg _ (by have := cover hl; omega))
  · obtain ⟨old, hg⟩ := gets_half_unlocked hur (by omega) e0
    exact main (.st r (n' / 32 + 1) old) (by simp) (by simp) rfl ⟨by omega, hmask⟩ (fun hm => by have := hm.1; omega) (hg _ (by have := cover hl'; omega))

/-- the hypotheses are met by `demo3` -/
example : ∃ as0 s0 s, Exec demo3 (start 0 en3) as0 s0 ∧ (∀ k, .nvicMask k ∉ as0) ∧ Waiting demo3 2 s0 [.irq 1, .ret] s :=
  C75_other_register_violated demo3_wf (n := 5) (n' := 40) (r := 10) rfl ⟨rfl, .inl rfl⟩ (by decide) (by decide) (by decide) (by decide) rfl rfl (by decide) (by decide) (by decide)

end Verif.SourceMask
