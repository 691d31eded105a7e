import Verif.Srp.Props

/-!
# C74: a task is blocked by at most one critical section of a lower-priority task (BASEPRI targets)
-/

namespace Verif.Srp

/-! ## Specification -/

/-- the record is a critical section that keeps interrupts of priority `p` from starting: a lock on a resource with a ceiling of at least `p`, or a section with all interrupts disabled -/
def Blocker (c : Cfg) (p : Nat) : Rec → Prop
  | .lk r _ => p ≤ c.ceil r
  | .cs _ _ => True
  | _ => False

/-- the stack `x :: below` has on top a critical section blocking priority `p`, held by a task of lower priority -/
def BlockedAt (c : Cfg) (p : Nat) (x : Rec) (below : List Rec) : Prop := Blocker c p x ∧ ∃ t, top below = some t ∧ c.prio t < p

/-- some task of lower priority is inside a critical section that blocks priority `p` -/
def Blocked (c : Cfg) (p : Nat) (l : List Rec) : Prop := ∃ x below, (x :: below) <:+ l ∧ BlockedAt c p x below

/-- An execution during which the interrupt of task `t` is pending and is not taken: whenever the hardware admits `t`, it starts some handler of at least this priority at once, before any further instruction of the running task. -/
inductive Waiting (c : Cfg) (t : Nat) : St → List Act → St → Prop
  | nil (s) : Waiting c t s [] s
  | snoc {s s1 s2 as a} (h : Waiting c t s as s1) (hs : Step c s1 a s2) (hne : a ≠ .irq t)
      (hu : ∀ cur, top s1.stack = some cur → admits c.bits s1.bp s1.pm (c.prio cur) (c.prio t) → ∃ t', a = .irq t' ∧ c.prio t ≤ c.prio t') : Waiting c t s (as ++ [a]) s2

/-! ## Proofs -/

theorem level_lt_of {c : Cfg} {p : Nat} {l : List Rec} (hp : 1 ≤ p) (h : ∀ r cur, .lk r cur ∈ l → c.ceil r < p) : level c l < p := by
  induction l with
  | nil => exact hp
  | cons x l ih =>
    have := ih (fun r cur hm => h r cur (List.mem_cons_of_mem _ hm))
    cases x <;> simp only [level] <;> try exact this
    rename_i r cur
    have := h r cur List.mem_cons_self
    omega

theorem masked_false_of {l : List Rec} (h : ∀ r m, .cs r m ∉ l) : masked l = false := by
  induction l with
  | nil => rfl
  | cons x l ih =>
    have := ih (fun r m hm => h r m (List.mem_cons_of_mem _ hm))
    cases x <;> simp only [masked] <;> try exact this
    exact absurd List.mem_cons_self (h _ _)

/-- in a consistent stack, every activation below the top is at most as urgent -/
theorem top_suffix {c : Cfg} {l l' : List Rec} {t cur : Nat} (hok : Ok c l) (hs : l' <:+ l) (h1 : top l' = some t) (h2 : top l = some cur) : c.prio t ≤ c.prio cur := by
  have : ∃ y ∈ l', ActivationOf t y := by
    rcases top_append (l1 := l') (l2 := []) (by simpa using h1) with h | h
    · exact h
    · cases h
  obtain ⟨y, hy, ha⟩ := this
  exact top_max hok h2 (hs.subset hy) ha

theorem ok_suffix {c : Cfg} {l l' : List Rec} (h : Ok c l) (hs : l' <:+ l) : Ok c l' := by
  obtain ⟨p, rfl⟩ := hs; exact ok_append h

theorem lock_owner {c : Cfg} {x : Rec} {below : List Rec} {p : Nat} (h : Ok c (x :: below)) (hb : Blocker c p x) : ∃ t, top below = some t := by
  have : ∀ l : List Rec, inCode l = true → Ok c l → ∃ t, top l = some t := by
    intro l
    induction l with
    | nil => intro h; simp [inCode] at h
    | cons y l ih =>
      intro h ho
      cases y with
      | body t i => exact ⟨t, rfl⟩
      | lk r cur => exact ih ho.2.2.2.1 ho.2.2.2.2
      | cs r m => exact ih ho.2.2.1 ho.2.2.2
      | _ => simp [inCode] at h
  cases x with
  | lk r cur => exact this below h.2.2.2.1 h.2.2.2.2
  | cs r m => exact this below h.2.2.1 h.2.2.2
  | _ => exact hb.elim

/-- a lower-priority task runs and nobody blocks: the hardware admits the interrupt -/
theorem admitted_of_free {c : Cfg} (hwf : WellFormed c) {s : St} (hi : Inv c s) {t cur : Nat} (hp : 1 ≤ c.prio t) (hc : top s.stack = some cur) (hlt : c.prio cur < c.prio t)
    (hb : ¬ Blocked c (c.prio t) s.stack) : admits c.bits s.bp s.pm (c.prio cur) (c.prio t) := by
  have no : ∀ x, x ∈ s.stack → ¬ Blocker c (c.prio t) x := by
    intro x hx hbl
    obtain ⟨l1, l2, hl⟩ := List.append_of_mem hx
    have hsuf : (x :: l2) <:+ s.stack := ⟨l1, hl.symm⟩
    obtain ⟨t', ht'⟩ := lock_owner (ok_suffix hi.ok hsuf) hbl
    have := top_suffix hi.ok ((List.suffix_cons x l2).trans hsuf) ht' hc
    exact hb ⟨x, l2, hsuf, hbl, t', ht', by omega⟩
  rw [hi.bp, admits_iff hwf.bits (level_lt hi.ok) hp (hwf.prio t) (hwf.prio cur), hi.pm]
  refine ⟨masked_false_of (fun r m hm => no _ hm trivial), hlt, ?_⟩
  refine level_lt_of hp (fun r cur' hm => ?_)
  have := no _ hm
  simp only [Blocker] at this
  omega

/-- **C74** At any moment, all critical sections that block priority `p` and are held by tasks of lower priority belong to one activation of one task: no task was started between two of them. -/
theorem C74_single_blocker {c : Cfg} (hwf : WellFormed c) {idle : Nat} (hidle : c.prio idle = 0) {as : List Act} {s : St} (hx : Exec c (start idle) as s)
    {above mid below : List Rec} {x1 x2 : Rec} {p : Nat} (hst : s.stack = above ++ x1 :: (mid ++ x2 :: below))
    (h1 : BlockedAt c p x1 (mid ++ x2 :: below)) (h2 : BlockedAt c p x2 below) : ∀ t, ∀ y ∈ mid, ¬ ActivationOf t y := by
  intro t y hy ha
  have hi := inv_exec hwf hx (inv_start hwf hidle)
  obtain ⟨-, t1, ht1, hlt⟩ := h1
  have hok : Ok c (mid ++ x2 :: below) := by
    have := hi.ok; rw [hst] at this; exact ok_append (l1 := [x1]) (ok_append this)
  have hle := top_max hok ht1 (List.mem_append_left _ hy) ha
  obtain ⟨p1, p2, rfl⟩ := List.append_of_mem hy
  rw [List.append_assoc, List.cons_append] at hok
  obtain ⟨hm, hlv, -⟩ := act_admitted (ok_append hok) ha (by simp)
  have hmem : x2 ∈ p2 ++ x2 :: below := by simp
  cases x2 with
  | lk r cur =>
    have := level_ge (c := c) hmem
    have := h2.1
    simp only [Blocker] at this
    omega
  | cs r m => rw [masked_of_mem hmem] at hm; cases hm
  | _ => exact h2.1.elim

/-- **C74** Whenever a task of lower priority runs and no such task is inside a critical section blocking priority `p`, the interrupt of a task of priority `p` can start at once: nothing else delays a task than tasks of the same or higher priority and such critical sections. -/
theorem C74_free_to_start {c : Cfg} (hwf : WellFormed c) {idle : Nat} (hidle : c.prio idle = 0) {as : List Act} {s : St} (hx : Exec c (start idle) as s)
    {t cur : Nat} (hp : 1 ≤ c.prio t) (hc : top s.stack = some cur) (hlt : c.prio cur < c.prio t) (hb : ¬ Blocked c (c.prio t) s.stack) :
    ∃ s', Step c s (.irq t) s' :=
  ⟨_, .irq t cur hc hp (admitted_of_free hwf (inv_exec hwf hx (inv_start hwf hidle)) hp hc hlt hb)⟩

/-- one step while `t` waits: blocking sections of lower-priority tasks are only left, or entered inside others -/
theorem waiting_step {c : Cfg} (hwf : WellFormed c) {s s' : St} (hi : Inv c s) {a : Act} {t : Nat} (hp : 1 ≤ c.prio t) (hs : Step c s a s')
    (hu : ∀ cur, top s.stack = some cur → admits c.bits s.bp s.pm (c.prio cur) (c.prio t) → ∃ t', a = .irq t' ∧ c.prio t ≤ c.prio t')
    {x : Rec} {below : List Rec} (hsuf : (x :: below) <:+ s'.stack) (hb : BlockedAt c (c.prio t) x below) :
    Blocked c (c.prio t) s.stack ∧ ((x :: below) <:+ s.stack ∨ ∃ y m, s'.stack = y :: m ∧ m <:+ s.stack ∧ Blocked c (c.prio t) m) := by
  -- a record pushed or replaced that is not a blocker
  have nb : ∀ {y : Rec} {m : List Rec}, s'.stack = y :: m → m <:+ s.stack → ¬ Blocker c (c.prio t) y → (x :: below) <:+ s.stack := by
    intro y m h1 h2 h3
    rw [h1] at hsuf
    rcases List.suffix_cons_iff.1 hsuf with h | h
    · cases h; exact absurd hb.1 h3
    · exact h.trans h2
  have fin : (x :: below) <:+ s.stack → _ := fun h => (⟨⟨x, below, h, hb⟩, .inl h⟩ :
    Blocked c (c.prio t) s.stack ∧ ((x :: below) <:+ s.stack ∨ ∃ y m, s'.stack = y :: m ∧ m <:+ s.stack ∧ Blocked c (c.prio t) m))
  -- a blocker is entered
  have enter : ∀ {y z : Rec} {m : List Rec}, s.stack = z :: m → s'.stack = y :: m → top s.stack = top m → ¬ Blocker c (c.prio t) z → (∀ t', a ≠ .irq t') →
      Blocked c (c.prio t) s.stack ∧ ((x :: below) <:+ s.stack ∨ ∃ y m, s'.stack = y :: m ∧ m <:+ s.stack ∧ Blocked c (c.prio t) m) := by
    intro y z m h1 h2 h3 h4 h5
    rw [h2] at hsuf
    rcases List.suffix_cons_iff.1 hsuf with h | h
    · cases h
      obtain ⟨-, t1, ht1, hlt⟩ := hb
      by_cases hbl : Blocked c (c.prio t) s.stack
      · refine ⟨hbl, .inr ⟨x, below, h2, by rw [h1]; exact List.suffix_cons _ _, ?_⟩⟩
        obtain ⟨x', b', hs', hb'⟩ := hbl
        rw [h1] at hs'
        rcases List.suffix_cons_iff.1 hs' with h | h
        · cases h; exact absurd hb'.1 h4
        · exact ⟨x', b', h, hb'⟩
      · obtain ⟨t', ht', -⟩ := hu t1 (by rw [h3]; exact ht1) (admitted_of_free hwf hi hp (by rw [h3]; exact ht1) hlt hbl)
        exact absurd ht' (h5 t')
    · exact fin (by rw [h1]; exact h.trans (List.suffix_cons _ _))
  cases hs with
  | irq t' cur htop hp' ha => exact fin (nb rfl List.suffix_rfl id)
  | readInitial t' rest h => exact fin (nb rfl (by rw [h]; exact List.suffix_cons _ _) id)
  | lockCs t' r htop hc hu' hr => exact fin (nb rfl List.suffix_rfl id)
  | lock t' r htop hc hu' hr => exact fin (nb rfl List.suffix_rfl id)
  | userCs hc => exact fin (nb rfl List.suffix_rfl id)
  | raise r cur rest h => exact enter h rfl (by rw [h]; rfl) id (by simp)
  | raiseCs r m rest h => exact enter h rfl (by rw [h]; rfl) id (by simp)
  | unlock r cur rest h => exact fin (hsuf.trans (by rw [h]; exact List.suffix_cons _ _))
  | unlockCs r m rest h => exact fin (hsuf.trans (by rw [h]; exact List.suffix_cons _ _))
  | finish1 t' rest h hp' => exact fin (nb rfl (by rw [h]; exact List.suffix_cons _ _) id)
  | finish t' i rest h => exact fin (nb rfl (by rw [h]; exact List.suffix_cons _ _) id)
  | ret t' rest h => exact fin (hsuf.trans (by rw [h]; exact List.suffix_cons _ _))

/-- what a step leaves of the stack -/
theorem step_suffix {c : Cfg} {s s' : St} {a : Act} (hs : Step c s a s') {l : List Rec} (hl : l <:+ s.stack) : l <:+ s'.stack ∨ l = s.stack := by
  have drop1 : ∀ {z : Rec} {m : List Rec}, s.stack = z :: m → m <:+ s'.stack → l <:+ s'.stack ∨ l = s.stack := by
    intro z m h1 h2
    rw [h1] at hl
    rcases List.suffix_cons_iff.1 hl with h | h
    · exact .inr (h.trans h1.symm)
    · exact .inl (h.trans h2)
  cases hs with
  | irq t' cur htop hp' ha => exact .inl (hl.trans (List.suffix_cons _ _))
  | readInitial t' rest h => exact drop1 h (List.suffix_cons _ _)
  | lockCs t' r htop hc hu' hr => exact .inl (hl.trans (List.suffix_cons _ _))
  | lock t' r htop hc hu' hr => exact .inl (hl.trans (List.suffix_cons _ _))
  | userCs hc => exact .inl (hl.trans (List.suffix_cons _ _))
  | raise r cur rest h => exact drop1 h (List.suffix_cons _ _)
  | raiseCs r m rest h => exact drop1 h (List.suffix_cons _ _)
  | unlock r cur rest h => exact drop1 h List.suffix_rfl
  | unlockCs r m rest h => exact drop1 h List.suffix_rfl
  | finish1 t' rest h hp' => exact drop1 h (List.suffix_cons _ _)
  | finish t' i rest h => exact drop1 h (List.suffix_cons _ _)
  | ret t' rest h => exact drop1 h List.suffix_rfl

/-- **C74** (blocked at most once) While task `t` waits for its interrupt to be taken, from state `s0` to `s`: if a lower-priority task blocks it in `s`, it does so from inside a critical section which was already entered in `s0`, before `t` became pending
(the record and everything below it are unchanged). So, with `C74_single_blocker`, a task waits for the end of at most one critical section of one lower-priority task; once no section blocks it, none will until it starts. -/
theorem C74_blocked_once {c : Cfg} (hwf : WellFormed c) {idle : Nat} (hidle : c.prio idle = 0) {as0 as : List Act} {s0 s : St} {t : Nat} (hp : 1 ≤ c.prio t)
    (hx : Exec c (start idle) as0 s0) (hw : Waiting c t s0 as s) (hb : Blocked c (c.prio t) s.stack) :
    ∃ x below, BlockedAt c (c.prio t) x below ∧ (x :: below) <:+ s0.stack ∧ (x :: below) <:+ s.stack := by
  have key : Exec c s0 as s ∧ (Blocked c (c.prio t) s.stack → ∃ x below, BlockedAt c (c.prio t) x below ∧ (x :: below) <:+ s0.stack ∧ (x :: below) <:+ s.stack) := by
    clear hb
    induction hw with
    | nil => exact ⟨.nil _, fun ⟨x, b, h1, h2⟩ => ⟨x, b, h2, h1, h1⟩⟩
    | snoc h hs hne hu ih =>
      obtain ⟨he, ih⟩ := ih
      refine ⟨.snoc he hs, ?_⟩
      rintro ⟨x, below, hsuf, hb⟩
      have hi := inv_exec hwf (hx.trans he) (inv_start hwf hidle)
      obtain ⟨hb1, hcase⟩ := waiting_step hwf hi hp hs hu hsuf hb
      obtain ⟨x1, b1, g1, g2, g3⟩ := ih hb1
      rcases step_suffix hs g3 with h | h
      · exact ⟨x1, b1, g1, g2, h⟩
      · -- the step changed the section itself: it was left, or something was pushed
        rcases hcase with hc | ⟨y, m, hm1, hm2, x2, b2, k1, k2⟩
        · exact ⟨x, below, hb, by rw [← h] at hc; exact hc.trans g2, hsuf⟩
        · refine ⟨x2, b2, k2, ?_, by rw [hm1]; exact k1.trans (List.suffix_cons _ _)⟩
          rw [← h] at hm2
          exact k1.trans (hm2.trans g2)
  exact key.2 hb

/-- **C74** (consequence) A task that becomes pending while no lower-priority task is inside a critical section blocking it is never blocked before it starts. -/
theorem C74_never_blocked_later {c : Cfg} (hwf : WellFormed c) {idle : Nat} (hidle : c.prio idle = 0) {as0 as : List Act} {s0 s : St} {t : Nat} (hp : 1 ≤ c.prio t)
    (hx : Exec c (start idle) as0 s0) (hw : Waiting c t s0 as s) (h0 : ¬ Blocked c (c.prio t) s0.stack) : ¬ Blocked c (c.prio t) s.stack := by
  intro hb
  obtain ⟨x, b, h1, h2, -⟩ := C74_blocked_once hwf hidle hp hx hw hb
  exact h0 ⟨x, b, h2, h1⟩

/-- **C74** (no priority inversion by other tasks) While task `t` waits, no task of lower priority is started. -/
theorem C74_no_lower_starts {c : Cfg} (hwf : WellFormed c) {idle : Nat} (hidle : c.prio idle = 0) {as0 as : List Act} {s0 s : St} {t : Nat} (hp : 1 ≤ c.prio t)
    (hx : Exec c (start idle) as0 s0) (hw : Waiting c t s0 as s) {t' : Nat} (hm : .irq t' ∈ as) : c.prio t ≤ c.prio t' := by
  have key : Exec c s0 as s ∧ ∀ t', .irq t' ∈ as → c.prio t ≤ c.prio t' := by
    clear hm
    induction hw with
    | nil => exact ⟨.nil _, fun t' h => by cases h⟩
    | snoc h hs hne hu ih =>
      obtain ⟨he, ih⟩ := ih
      refine ⟨.snoc he hs, ?_⟩
      intro t' hm
      rcases List.mem_append.1 hm with hm | hm
      · exact ih t' hm
      · simp only [List.mem_singleton] at hm
        subst hm
        have hi := inv_exec hwf (hx.trans he) (inv_start hwf hidle)
        cases hs with
        | irq _ cur htop hp' ha =>
          rcases Nat.lt_or_ge (c.prio t') (c.prio t) with hlt | hge
          · have ha2 := ha
            rw [hi.bp, admits_iff hwf.bits (level_lt hi.ok) hp' (hwf.prio t') (hwf.prio cur)] at ha2
            obtain ⟨t2, e, hge⟩ := hu cur htop (by
              rw [hi.bp, admits_iff hwf.bits (level_lt hi.ok) hp (hwf.prio t) (hwf.prio cur)]
              exact ⟨ha2.1, by omega, by omega⟩)
            cases e; exact hge
          · exact hge
  exact key.2 t' hm

/-- Non-vacuity: task 1 is inside the lock on resource 10 (ceiling 2) when task 2 becomes pending. Task 3 preempts and returns, task 1 leaves the lock: all this time task 2 waits, and in the end it may start. -/
example : ∃ as0 s0 as s, Exec demo (start 0) as0 s0 ∧ Blocked demo (demo.prio 2) s0.stack ∧ Waiting demo 2 s0 as s ∧ as.length = 5 ∧ ¬ Blocked demo (demo.prio 2) s.stack ∧ ∃ s', Step demo s (.irq 2) s' := by
  have h0 : Exec demo (start 0) ([] ++ [.irq 1] ++ [.readInitial] ++ [.lock 10] ++ [.raise]) ⟨[.lk 10 0, .body 1 none, .body 0 none], 128, false⟩ := by
    refine .snoc (.snoc (.snoc (.snoc (.nil _) (.irq 1 0 rfl (by decide) (by decide))) (.readInitial 1 _ rfl)) (.lock 1 10 rfl rfl ⟨rfl, by decide⟩ (by decide))) (.raise 10 0 _ rfl)
  have hw : Waiting demo 2 ⟨[.lk 10 0, .body 1 none, .body 0 none], 128, false⟩ ([] ++ [.irq 3] ++ [.readInitial] ++ [.finish] ++ [.ret] ++ [.unlock]) ⟨[.body 1 none, .body 0 none], 0, false⟩ := by
    refine .snoc (.snoc (.snoc (.snoc (.snoc (.nil _) (.irq 3 1 rfl (by decide) (by decide)) (by decide) ?_) (.readInitial 3 _ rfl) (by decide) ?_) (.finish 3 128 _ rfl) (by decide) ?_) (.ret 3 _ rfl) (by decide) ?_)
      (.unlock 10 0 _ rfl) (by decide) ?_ <;> (intro cur hc ha; cases hc; exact absurd ha (by decide))
  have hnb : ¬ Blocked demo (demo.prio 2) [.body 1 none, .body 0 none] := by
    rintro ⟨x, b, hs, hb, -⟩
    have : x ∈ [Rec.body 1 none, .body 0 none] := hs.subset List.mem_cons_self
    simp at this
    rcases this with rfl | rfl <;> exact hb
  refine ⟨_, _, _, _, h0, ⟨.lk 10 0, _, List.suffix_rfl, by show demo.prio 2 ≤ demo.ceil 10; decide, 1, rfl, by decide⟩, hw, rfl, hnb, ?_⟩
  exact ⟨_, .irq 2 1 rfl (by decide) (by decide)⟩

end Verif.Srp
