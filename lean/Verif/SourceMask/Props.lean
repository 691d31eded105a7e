import Verif.SourceMask.Lemmas

/-!
# C49, C47 (interrupt-masking targets), C59, C60
-/

namespace Verif.SourceMask

theorem act_admitted {c : Cfg} {e0 : Regs} {x : Rec} {rest : List Rec} {t : Nat} (h : Ok c e0 (x :: rest)) (ha : ActivationOf t x) (hne : rest ≠ []) :
    masked rest = false ∧ (∃ cur, top rest = some cur ∧ c.prio cur < c.prio t) ∧ ∀ n, c.bind t = some n → enabled (exp c e0 rest) n = true := by
  cases x <;> simp only [ActivationOf] at ha <;> try exact ha.elim
  subst ha
  rcases h.1 with h1 | h1
  · exact absurd h1.1 hne
  · exact h1

theorem holder_exclusive {c : Cfg} (hwf : WellFormed c) {e0 : Regs} {l : List Rec} (hok : Ok c e0 l)
    {above below : List Rec} {x y : Rec} {r t n : Nat} (hst : l = above ++ x :: below) (hl : InsideLock r x)
    (hy : y ∈ above) (ht : ActivationOf t y) (hb : c.bind t = some n) : ¬ c.uses t r := by
  intro hu
  obtain ⟨p1, p2, rfl⟩ := List.append_of_mem hy
  rw [hst, List.append_assoc, List.cons_append] at hok
  have hok2 := ok_append hok
  obtain ⟨hm, ⟨cur, -, hlt⟩, hen⟩ := act_admitted hok2 ht (by simp)
  have hmem : x ∈ p2 ++ x :: below := by simp
  cases x with
  | lk r' old =>
    simp only [InsideLock] at hl; subst hl
    have h1 : enabled (exp c e0 (p2 ++ .lk r' old :: below)) n = true := hen n hb
    have h2 : enabled (exp c e0 (.lk r' old :: below)) n = true := exp_mono p2 _ _ _ h1
    have hok3 := ok_append (l1 := y :: p2) hok2
    have hc4 : ¬ c.ceil r' ≥ 4 := hok3.2.1
    have h3 : (c.mask r').has n = true := by
      unfold Cfg.mask
      rw [(computeMask_spec hwf.masks (by omega)).2]
      refine ⟨c.prio t, hwf.listed t n hb (by omega), ?_⟩
      have := hwf.ceil t r' hu
      omega
    unfold enabled at h2
    simp only [exp, BitVec.getLsbD_and, BitVec.getLsbD_not, Bool.and_eq_true] at h2
    have h4 : (c.m r' (n / 32)).getLsbD (n % 32) = true := h3
    rw [h4] at h2
    simp at h2
  | cs r' m => rw [masked_of_mem hmem] at hm; cases hm
  | _ => exact hl

/-- **C49** Mutual exclusion on targets without BASEPRI. In every reachable state — any set of interrupts and priorities, any nesting of locks and critical sections, any arrival of interrupts between any two register
accesses, any calls of `NVIC::mask` by tasks, any initially enabled interrupts `e0` — if the stack contains a task inside `lock` on resource `r` (record `x`), then no interrupt-bound task started on top of it uses `r`. -/
theorem C49_mutual_exclusion {c : Cfg} (hwf : WellFormed c) {idle : Nat} (hidle : c.prio idle = 0) {e0 : Regs} {as : List Act} {s : St} (hx : Exec c (start idle e0) as s)
    {above below : List Rec} {x y : Rec} {r t n : Nat} (hst : s.stack = above ++ x :: below) (hl : InsideLock r x)
    (hy : y ∈ above) (ht : ActivationOf t y) (hb : c.bind t = some n) : ¬ c.uses t r :=
  holder_exclusive hwf (inv_exec hwf hx (inv_start e0 hidle)).ok hst hl hy ht hb

/-- **C49** (no simultaneous access) Two records inside `lock` on the same resource belong to the same activation, if all tasks started above the first are interrupt-bound. -/
theorem C49_one_holder {c : Cfg} (hwf : WellFormed c) {idle : Nat} (hidle : c.prio idle = 0) {e0 : Regs} {as : List Act} {s : St} (hx : Exec c (start idle e0) as s)
    {above mid below : List Rec} {x1 x2 : Rec} {r : Nat} (hst : s.stack = above ++ x1 :: (mid ++ x2 :: below))
    (h1 : InsideLock r x1) (h2 : InsideLock r x2) (hb : ∀ t, ∀ y ∈ mid, ActivationOf t y → ∃ n, c.bind t = some n) : ∀ t, ∀ y ∈ mid, ¬ ActivationOf t y := by
  intro t y hy ha
  have hi := inv_exec hwf hx (inv_start e0 hidle)
  have hok := hi.ok
  rw [hst] at hok
  have hok1 := ok_append hok
  have hu : ∃ t', top (mid ++ x2 :: below) = some t' ∧ c.uses t' r := by
    cases x1 with
    | lk r' old => simp only [InsideLock] at h1; subst h1; exact hok1.2.2.1
    | cs r' m =>
      cases r' with
      | none => exact h1.elim
      | some r' => simp only [InsideLock] at h1; subst h1; exact hok1.2.1 r' rfl
    | _ => exact h1.elim
  obtain ⟨t', htop, hu⟩ := hu
  have hex : ∃ y' ∈ mid, ActivationOf t' y' := by
    clear hok hok1 hst hb
    induction mid with
    | nil => cases hy
    | cons z mid ih =>
      rw [List.cons_append] at htop
      cases z with
      | body _ => simp only [top] at htop; cases htop; exact ⟨_, List.mem_cons_self, rfl⟩
      | _ =>
        simp only [top] at htop
        rcases List.mem_cons.mp hy with rfl | hy
        · exact ha.elim
        · obtain ⟨y', h1, h2⟩ := ih hy htop
          exact ⟨y', List.mem_cons_of_mem _ h1, h2⟩
  obtain ⟨y', hy', ha'⟩ := hex
  obtain ⟨n, hn⟩ := hb t' y' hy' ha'
  have hst' : s.stack = (above ++ x1 :: mid) ++ x2 :: below := by rw [hst]; simp
  exact C49_mutual_exclusion hwf hidle hx hst' h2 (by simp [hy']) ha' hn hu

/-- **C49** (idle and exception holders) A lock also excludes the task it interrupts being interrupted by itself: above a lock on `r` with a ceiling at or above its own priority no interrupt-bound task with priority up to
the ceiling runs at all, whether it uses the resource or not. -/
theorem C49_ceiling {c : Cfg} (hwf : WellFormed c) {idle : Nat} (hidle : c.prio idle = 0) {e0 : Regs} {as : List Act} {s : St} (hx : Exec c (start idle e0) as s)
    {above below : List Rec} {old : Regs} {y : Rec} {r t n : Nat} (hst : s.stack = above ++ .lk r old :: below)
    (hy : y ∈ above) (ht : ActivationOf t y) (hb : c.bind t = some n) : c.ceil r < c.prio t := by
  rcases Nat.lt_or_ge (c.ceil r) (c.prio t) with h | h
  · exact h
  · -- let `t` use `r`: the same execution is one of the application in which it does
    exfalso
    have hok := (inv_exec hwf hx (inv_start e0 hidle)).ok
    obtain ⟨p1, p2, rfl⟩ := List.append_of_mem hy
    rw [hst, List.append_assoc, List.cons_append] at hok
    have hok2 := ok_append hok
    obtain ⟨-, ⟨cur, -, hlt⟩, hen⟩ := act_admitted hok2 ht (by simp)
    have h2 : enabled (exp c e0 (.lk r old :: below)) n = true := exp_mono p2 _ _ _ (hen n hb)
    have hok3 := ok_append (l1 := y :: p2) hok2
    have hc4 : ¬ c.ceil r ≥ 4 := hok3.2.1
    have h3 : (c.mask r).has n = true := by
      unfold Cfg.mask
      rw [(computeMask_spec hwf.masks (by omega)).2]
      exact ⟨c.prio t, hwf.listed t n hb (by omega), by omega⟩
    unfold enabled at h2
    simp only [exp, BitVec.getLsbD_and, BitVec.getLsbD_not, Bool.and_eq_true] at h2
    have h4 : (c.m r (n / 32)).getLsbD (n % 32) = true := h3
    rw [h4] at h2
    simp at h2

/-! ## C47 on these targets -/

theorem Exec.trans {c : Cfg} {s1 s2 s3 : St} {as bs : List Act} (h1 : Exec c s1 as s2) (h2 : Exec c s2 bs s3) : Exec c s1 (as ++ bs) s3 := by
  induction h2 with
  | nil => simpa using h1
  | snoc h hs ih => rw [← List.append_assoc]; exact .snoc ih hs

/-- **C47** The enabled interrupts are a function of the nesting of locks: whenever the same nesting is reached again, the same interrupts are enabled (if no task calls `NVIC::mask`). -/
theorem C47_source_mask_determined {c : Cfg} (hwf : WellFormed c) {idle : Nat} (hidle : c.prio idle = 0) {e0 : Regs} {as as' : List Act} {s s' : St}
    (hx : Exec c (start idle e0) as s) (hx' : Exec c (start idle e0) as' s') (hst : s.stack = s'.stack)
    (hn : ∀ n, .nvicMask n ∉ as) (hn' : ∀ n, .nvicMask n ∉ as') : s.en = s'.en ∧ s.pm = s'.pm := by
  have i0 := inv_start (c := c) e0 hidle
  have e0' : Exact c e0 (start idle e0) := ⟨trivial, rfl⟩
  have h1 := exact_exec hwf hx i0 e0' hn
  have h2 := exact_exec hwf hx' i0 e0' hn'
  have h3 := inv_exec hwf hx i0
  have h4 := inv_exec hwf hx' i0
  rw [h1.en, h2.en, h3.pm, h4.pm, hst]; exact ⟨rfl, rfl⟩

/-- **C47** (lock) After `lock` returned — with nested locks and preemptions in between — exactly the interrupts enabled before are enabled. The last step is the end of the restoring loop or of the critical section. -/
theorem C47_source_mask_lock_restores {c : Cfg} (hwf : WellFormed c) {idle : Nat} (hidle : c.prio idle = 0) {e0 : Regs} {as0 as : List Act} {s s1 s2 s3 : St} {r : Nat} {a : Act}
    (hx : Exec c (start idle e0) as0 s) (h1 : Step c s (.lock r) s1) (h2 : Exec c s1 as s2) (h3 : Step c s2 a s3) (hret : s3.stack = s.stack)
    (hn : ∀ n, .nvicMask n ∉ as0 ++ [.lock r] ++ as ++ [a]) : s3.en = s.en ∧ s3.pm = s.pm :=
  C47_source_mask_determined hwf hidle (.snoc ((Exec.snoc hx h1).trans h2) h3) hx hret hn
    (fun n hm => hn n (List.mem_append_left _ (List.mem_append_left _ (List.mem_append_left _ hm))))

/-- **C47** In idle, outside all locks and handlers, all initially enabled interrupts are enabled. -/
theorem C47_source_mask_idle {c : Cfg} (hwf : WellFormed c) {idle : Nat} (hidle : c.prio idle = 0) {e0 : Regs} {as : List Act} {s : St}
    (hx : Exec c (start idle e0) as s) (hst : s.stack = [.body idle]) (hn : ∀ n, .nvicMask n ∉ as) : s.en = e0 ∧ s.pm = false := by
  have := C47_source_mask_determined hwf hidle hx (.nil (start idle e0)) hst hn (by simp)
  exact this

/-! ## A concrete application

Idle (task 0) shares resource 10 with task 1 (priority 1, interrupt 3) and task 2 (priority 2, interrupt 5): ceiling 2. Task 3 (priority 3, interrupt 40) does not use it.
Task 4 is bound to an exception, has priority 2 and uses resource 10. -/

def demo : Cfg :=
  { prio := fun t => if t = 1 then 1 else if t = 2 then 2 else if t = 3 then 3 else if t = 4 then 2 else 0
    bind := fun t => if t = 1 then some 3 else if t = 2 then some 5 else if t = 3 then some 40 else none
    uses := fun t r => r = 10 ∧ t ≠ 3
    ceil := fun r => if r = 10 then 2 else 0
    irqs := [(1, 3), (2, 5), (3, 40)]
    masks := [[8#32, 0#32], [32#32, 0#32], [0#32, 256#32]] }

theorem demo_wf : WellFormed demo := by
  refine ⟨by decide, fun t n hb hp => ?_, fun t r hu => ?_⟩
  · simp only [demo] at hb hp ⊢
    by_cases h1 : t = 1
    · subst h1; simp at hb; subst hb; decide
    · by_cases h2 : t = 2
      · subst h2; simp at hb; subst hb; decide
      · by_cases h3 : t = 3
        · subst h3; simp at hb; subst hb; decide
        · simp [h1, h2, h3] at hb
  · obtain ⟨rfl, h3⟩ := hu
    show (if t = 1 then 1 else if t = 2 then 2 else if t = 3 then 3 else if t = 4 then 2 else 0) ≤ (if 10 = 10 then 2 else 0)
    rw [if_pos rfl]
    repeat' split
    all_goals omega

/-- all three interrupts enabled -/
def en0 : Regs := fun i => if i = 0 then 40#32 else if i = 1 then 256#32 else 0#32

def old0 : Regs := guardUpd (demo.m 10 1) (guardUpd (demo.m 10 0) (fun _ => 0#32) 0 (en0 0)) 1 (en0 1)
def en1 : Regs := guardUpd (demo.m 10 1) (guardUpd (demo.m 10 0) en0 0 (en0 0 &&& ~~~(demo.m 10 0))) 1
  (guardUpd (demo.m 10 0) en0 0 (en0 0 &&& ~~~(demo.m 10 0)) 1 &&& ~~~(demo.m 10 1))

/-- idle locks resource 10: afterwards interrupts 3 and 5 are disabled, 40 is enabled -/
theorem demo_locked : Exec demo (start 0 en0) ([] ++ [.lock 10] ++ [.acc] ++ [.acc] ++ [.acc] ++ [.acc] ++ [.acc] ++ [.acc]) ⟨[.lk 10 old0, .body 0], en1, false⟩ := by
  have hN : nChunks demo.irqs = 2 := rfl
  refine .snoc (.snoc (.snoc (.snoc (.snoc (.snoc (.snoc (.nil _) (.lock 0 10 rfl rfl ⟨rfl, by decide⟩ (by decide)))
    (.rd 10 0 _ _ rfl (by rw [hN]; omega))) (.rd 10 1 _ _ rfl (by rw [hN]; omega))) (.rdEnd 10 2 _ _ rfl (by rw [hN]; omega)))
    (.cl 10 0 _ _ rfl (by rw [hN]; omega))) (.cl 10 1 _ _ rfl (by rw [hN]; omega))) (.clEnd 10 2 _ _ rfl (by rw [hN]; omega))

example : enabled en1 3 = false ∧ enabled en1 5 = false ∧ enabled en1 40 = true := by decide

/-- task 3 preempts the lock; tasks 1 and 2 are not admitted -/
example : (∃ as s, Exec demo (start 0 en0) as s ∧ s.stack = [.body 3, .lk 10 old0, .body 0]) ∧
    ¬ admits demo ⟨[.lk 10 old0, .body 0], en1, false⟩ 0 1 ∧ ¬ admits demo ⟨[.lk 10 old0, .body 0], en1, false⟩ 0 2 := by
  refine ⟨⟨_, _, .snoc demo_locked (.irq 3 0 rfl ⟨rfl, by decide, fun n hn => ?_⟩), rfl⟩, fun h => ?_, fun h => ?_⟩
  · have : n = 40 := by simpa [demo] using hn.symm
    subst this; decide
  · exact absurd (h.2.2 3 rfl) (by decide)
  · exact absurd (h.2.2 5 rfl) (by decide)

/-! ## C59: tasks bound to exceptions -/

def old1 : Regs := guardUpd (demo.m 10 1) (guardUpd (demo.m 10 0) (fun _ => 0#32) 0 (en1 0)) 1 (en1 1)
def en2 : Regs := guardUpd (demo.m 10 1) (guardUpd (demo.m 10 0) en1 0 (en1 0 &&& ~~~(demo.m 10 0))) 1
  (guardUpd (demo.m 10 0) en1 0 (en1 0 &&& ~~~(demo.m 10 0)) 1 &&& ~~~(demo.m 10 1))

/-- **C59** (false) A task bound to a core exception (SysTick, PendSV, SVCall, ...) is accepted on these targets although it shares a resource, but `lock` does not keep it out: there is an accepted application and an execution
in which a task is inside `lock` on a resource and another task using the same resource preempts it and is itself inside `lock` on it. -/
theorem C59_exception_violated : ∃ (c : Cfg) (_ : WellFormed c) (idle : Nat) (e0 : Regs) (as : List Act) (s : St) (t1 t2 r : Nat) (o1 o2 : Regs),
    c.prio idle = 0 ∧ Exec c (start idle e0) as s ∧ s.stack = [.lk r o2, .body t2, .lk r o1, .body t1] ∧ c.uses t2 r := by
  refine ⟨demo, demo_wf, 0, en0,
    [] ++ [.lock 10] ++ [.acc] ++ [.acc] ++ [.acc] ++ [.acc] ++ [.acc] ++ [.acc] ++ [.irq 4] ++ [.lock 10] ++ [.acc] ++ [.acc] ++ [.acc] ++ [.acc] ++ [.acc] ++ [.acc],
    ⟨[.lk 10 old1, .body 4, .lk 10 old0, .body 0], en2, false⟩, 0, 4, 10, old0, old1, rfl, ?_, rfl, ⟨rfl, by decide⟩⟩
  · have hN : nChunks demo.irqs = 2 := rfl
    refine .snoc (.snoc (.snoc (.snoc (.snoc (.snoc (.snoc (.snoc demo_locked (.irq 4 0 rfl ⟨rfl, by decide, fun n hn => ?_⟩)) (.lock 4 10 rfl rfl ⟨rfl, by decide⟩ (by decide)))
      (.rd 10 0 _ _ rfl (by rw [hN]; omega))) (.rd 10 1 _ _ rfl (by rw [hN]; omega))) (.rdEnd 10 2 _ _ rfl (by rw [hN]; omega)))
      (.cl 10 0 _ _ rfl (by rw [hN]; omega))) (.cl 10 1 _ _ rfl (by rw [hN]; omega))) (.clEnd 10 2 _ _ rfl (by rw [hN]; omega))
    simp [demo] at hn

/-- **C59** (what holds) If every user of the resource other than those with the lowest priority among its users is interrupt-bound, exclusion holds for all users: a user that preempts a holder is never exception-bound. Here: a resource
whose exception-bound users have at most the priority of every other user. -/
theorem C59_exception_partial {c : Cfg} (hwf : WellFormed c) {idle : Nat} (hidle : c.prio idle = 0) {e0 : Regs} {as : List Act} {s : St} (hx : Exec c (start idle e0) as s)
    {above below : List Rec} {x y : Rec} {r t : Nat} (hst : s.stack = above ++ x :: below) (hl : InsideLock r x)
    (hy : y ∈ above) (ht : ActivationOf t y)
    (hlow : ∀ t, c.bind t = none → c.uses t r → ∀ t', c.uses t' r → c.prio t ≤ c.prio t') : ¬ c.uses t r := by
  cases hb : c.bind t with
  | some n => exact C49_mutual_exclusion hwf hidle hx hst hl hy ht hb
  | none =>
    intro hu
    have hok := (inv_exec hwf hx (inv_start e0 hidle)).ok
    obtain ⟨p1, p2, rfl⟩ := List.append_of_mem hy
    rw [hst, List.append_assoc, List.cons_append] at hok
    have hok2 := ok_append hok
    obtain ⟨hm, ⟨cur, hcur, hlt⟩, -⟩ := act_admitted hok2 ht (by simp)
    have hokx := ok_append (l1 := y :: p2) hok2
    -- the holder uses `r`
    have hold : ∃ th, top below = some th ∧ c.uses th r := by
      cases x with
      | lk r' old => simp only [InsideLock] at hl; subst hl; exact hokx.2.2.1
      | cs r' m =>
        cases r' with
        | none => exact hl.elim
        | some r' => simp only [InsideLock] at hl; subst hl; exact hokx.2.1 r' rfl
      | _ => exact hl.elim
    obtain ⟨th, hth, hus⟩ := hold
    have htopx : top (x :: below) = some th := by
      cases x <;> simp only [InsideLock] at hl <;> try exact hl.elim
      · exact hth
      · exact hth
    -- priorities grow up the stack
    have hmono : ∀ (l : List Rec) (cur th : Nat), Ok c e0 (l ++ x :: below) → top (l ++ x :: below) = some cur → top (x :: below) = some th → c.prio th ≤ c.prio cur := by
      intro l
      induction l with
      | nil => intro cur th _ h1 h2; rw [List.nil_append, h2] at h1; cases h1; exact Nat.le_refl _
      | cons z l ih =>
        intro cur th hk h1 h2
        rw [List.cons_append] at hk h1
        cases z with
        | body t' =>
          simp only [top] at h1; cases h1
          rcases hk.1 with ⟨h, -⟩ | ⟨-, ⟨cur', hc', hlt'⟩, -⟩
          · simp at h
          · have := ih cur' th hk.2 hc' h2; omega
        | rd _ _ _ => exact ih cur th hk.2.2.2.2 h1 h2
        | cl _ _ _ => exact ih cur th hk.2.2.2.2 h1 h2
        | lk _ _ => exact ih cur th hk.2.2.2.2 h1 h2
        | st _ _ _ => exact ih cur th hk.2.2.2.2 h1 h2
        | cs0 _ _ => exact ih cur th hk.2.2.2 h1 h2
        | cs _ _ => exact ih cur th hk.2.2.2 h1 h2
    have h1 := hmono p2 cur th (ok_append (l1 := [y]) hok2) hcur htopx
    have h2 := hlow t hb hu th hus
    omega

/-! ## C60: interrupts that are none of the lock's business -/

/-- Idle and task 1 (priority 1, interrupt 3) share resource 10; task 3 (priority 3, interrupt 7) does not use it. -/
def demo2 : Cfg :=
  { prio := fun t => if t = 1 then 1 else if t = 3 then 3 else 0
    bind := fun t => if t = 1 then some 3 else if t = 3 then some 7 else none
    uses := fun t r => r = 10 ∧ t ≠ 3
    ceil := fun r => if r = 10 then 1 else 0
    irqs := [(1, 3), (3, 7)]
    masks := [[8#32], [0#32], [128#32]] }

theorem demo2_wf : WellFormed demo2 := by
  refine ⟨by decide, fun t n hb hp => ?_, fun t r hu => ?_⟩
  · by_cases h1 : t = 1
    · subst h1; simp [demo2] at hb; subst hb; decide
    · by_cases h3 : t = 3
      · subst h3; simp [demo2] at hb; subst hb; decide
      · simp [demo2, h1, h3] at hb
  · obtain ⟨rfl, h3⟩ := hu
    show (if t = 1 then 1 else if t = 3 then 3 else 0) ≤ (if 10 = 10 then 1 else 0)
    rw [if_pos rfl]
    repeat' split
    all_goals omega

def f0 : Regs := fun i => if i = 0 then 136#32 else 0#32
def o2 : Regs := guardUpd (demo2.m 10 0) (fun _ => 0#32) 0 (f0 0)
def f1 : Regs := guardUpd (demo2.m 10 0) f0 0 (f0 0 &&& ~~~(demo2.m 10 0))
def f2 : Regs := upd f1 (7 / 32) (f1 (7 / 32) &&& ~~~(1#32 <<< (7 % 32)))
def f3 : Regs := guardUpd (demo2.m 10 0) f2 0 (f2 0 ||| o2 0)

/-- **C60** (false) `lock` re-enables interrupts it did not disable: on leaving, the whole 32-bit chunk of enable bits read at the beginning is written back. There is an execution in which task 3, which preempts the lock, disables its own interrupt
with `NVIC::mask` (in the same chunk as the masked ones) and returns; the lock then re-enables it. -/
theorem C60_foreign_mask_violated : ∃ (c : Cfg) (_ : WellFormed c) (idle : Nat) (e0 : Regs) (as : List Act) (s s' : St) (r n : Nat),
    c.prio idle = 0 ∧ Exec c (start idle e0) as s ∧ (c.mask r).has n = false ∧ enabled s.en n = false ∧ (∃ o, s.stack = [.lk r o, .body idle]) ∧
    Exec c s [.unlock, .acc, .acc] s' ∧ s'.stack = [.body idle] ∧ enabled s'.en n = true := by
  have hN : nChunks demo2.irqs = 1 := rfl
  refine ⟨demo2, demo2_wf, 0, f0, [] ++ [.lock 10] ++ [.acc] ++ [.acc] ++ [.acc] ++ [.acc] ++ [.irq 3] ++ [.nvicMask 7] ++ [.ret],
    ⟨[.lk 10 o2, .body 0], f2, false⟩, ⟨[.body 0], f3, false⟩, 10, 7, rfl, ?_, by decide, by decide, ⟨o2, rfl⟩, ?_, rfl, by decide⟩
  · refine .snoc (.snoc (.snoc (.snoc (.snoc (.snoc (.snoc (.snoc (.nil _) (.lock 0 10 rfl rfl ⟨rfl, by decide⟩ (by decide)))
      (.rd 10 0 _ _ rfl (by rw [hN]; omega))) (.rdEnd 10 1 _ _ rfl (by rw [hN]; omega)))
      (.cl 10 0 _ _ rfl (by rw [hN]; omega))) (.clEnd 10 1 _ _ rfl (by rw [hN]; omega)))
      (.irq 3 0 rfl ⟨rfl, by decide, fun n hn => ?_⟩)) (.nvicMask 7 rfl)) (.ret 3 _ rfl (by simp))
    have : n = 7 := by simpa [demo2] using hn.symm
    subst this; decide
  · exact .snoc (as := [.unlock, .acc]) (.snoc (as := [.unlock]) (.snoc (as := []) (.nil _) (.unlock 10 o2 _ rfl)) (.st 10 0 o2 _ rfl (by rw [hN]; omega))) (.stEnd 10 1 o2 _ rfl (by rw [hN]; omega))

/-- **C60** (what holds) An interrupt whose 32-bit chunk contains no interrupt masked by any lock is never enabled or disabled by anything but the application itself. -/
theorem C60_foreign_mask_partial {c : Cfg} {s s' : St} {a : Act} (hs : Step c s a s') {n : Nat} (hm : ∀ r, c.m r (n / 32) = 0#32) (ha : ∀ k, a ≠ .nvicMask k) :
    enabled s'.en n = enabled s.en n := by
  have key : ∀ (r i : Nat) (v : BitVec 32), enabled (guardUpd (c.m r i) s.en i v) n = enabled s.en n := by
    intro r i v
    unfold guardUpd enabled
    split
    · rename_i h
      rw [upd_ne]
      intro e; rw [← e] at h; exact h (hm r)
    · rfl
  cases hs with
  | cl r i old rest h hi => exact key _ _ _
  | st r i old rest h hi => exact key _ _ _
  | nvicMask k _ => exact absurd rfl (ha k)
  | _ => rfl

/-- in the first application interrupt 64 is such an interrupt -/
example : ∀ r, demo.m r 2 = 0#32 := by
  intro r
  unfold Cfg.m Cfg.mask
  have : demo.ceil r = 2 ∨ demo.ceil r = 0 := by simp only [demo]; split <;> simp
  rcases this with h | h <;> rw [h] <;> decide

/-- `lock` (without critical section) is in progress in this record: from before its first register access to after its last. -/
def InProgress : Rec → Prop
  | .rd _ _ _ | .cl _ _ _ | .lk _ _ | .st _ _ _ => True
  | _ => False

/-- the enable bits saved by a lock in progress do not contain interrupt `n` -/
def SavedOff (n : Nat) : Rec → Prop
  | .rd _ _ old | .cl _ _ old | .lk _ old | .st _ _ old => enabled old n = false
  | _ => True

theorem guardUpd_off {cond v : BitVec 32} {f : Regs} {i n : Nat} (hf : enabled f n = false) (hv : i = n / 32 → v.getLsbD (n % 32) = false) :
    enabled (guardUpd cond f i v) n = false := by
  unfold guardUpd
  split
  · unfold enabled
    by_cases e : n / 32 = i
    · subst e; rw [upd_same]; exact hv rfl
    · rw [upd_ne _ _ e]; exact hf
  · exact hf

theorem off_step {c : Cfg} {s s' : St} {a : Act} {n : Nat} (hs : Step c s a s') (he : enabled s.en n = false) (hold : ∀ x ∈ s.stack, SavedOff n x) :
    enabled s'.en n = false ∧ ∀ x ∈ s'.stack, SavedOff n x := by
  cases hs with
  | irq t cur htop ha => exact ⟨he, by simpa [SavedOff] using hold⟩
  | lockCs t r htop hc hu hr => exact ⟨he, by simpa [SavedOff] using hold⟩
  | lock t r htop hc hu hr => exact ⟨he, by simpa [SavedOff, enabled] using hold⟩
  | userCs hc => exact ⟨he, by simpa [SavedOff] using hold⟩
  | rd r i old rest h hi =>
    rw [h] at hold
    have h1 : enabled old n = false := hold _ List.mem_cons_self
    refine ⟨he, fun x hx => ?_⟩
    rcases List.mem_cons.1 hx with rfl | hx
    · exact guardUpd_off h1 (fun e => by subst e; exact he)
    · exact hold x (List.mem_cons_of_mem _ hx)
  | rdEnd r i old rest h hi =>
    rw [h] at hold
    have h1 : enabled old n = false := hold _ List.mem_cons_self
    refine ⟨he, fun x hx => ?_⟩
    rcases List.mem_cons.1 hx with rfl | hx
    · exact h1
    · exact hold x (List.mem_cons_of_mem _ hx)
  | cl r i old rest h hi =>
    rw [h] at hold
    have h1 : enabled old n = false := hold _ List.mem_cons_self
    refine ⟨guardUpd_off he (fun e => ?_), fun x hx => ?_⟩
    · subst e
      have h2 : (s.en (n / 32)).getLsbD (n % 32) = false := he
      rw [BitVec.getLsbD_and, h2]; rfl
    · rcases List.mem_cons.1 hx with rfl | hx
      · exact h1
      · exact hold x (List.mem_cons_of_mem _ hx)
  | clEnd r i old rest h hi =>
    rw [h] at hold
    have h1 : enabled old n = false := hold _ List.mem_cons_self
    refine ⟨he, fun x hx => ?_⟩
    rcases List.mem_cons.1 hx with rfl | hx
    · exact h1
    · exact hold x (List.mem_cons_of_mem _ hx)
  | unlock r old rest h =>
    rw [h] at hold
    have h1 : enabled old n = false := hold _ List.mem_cons_self
    refine ⟨he, fun x hx => ?_⟩
    rcases List.mem_cons.1 hx with rfl | hx
    · exact h1
    · exact hold x (List.mem_cons_of_mem _ hx)
  | st r i old rest h hi =>
    rw [h] at hold
    have h1 : enabled old n = false := hold _ List.mem_cons_self
    refine ⟨guardUpd_off he (fun e => ?_), fun x hx => ?_⟩
    · subst e
      have h2 : (s.en (n / 32)).getLsbD (n % 32) = false := he
      have h3 : (old (n / 32)).getLsbD (n % 32) = false := h1
      rw [BitVec.getLsbD_or, h2, h3]; rfl
    · rcases List.mem_cons.1 hx with rfl | hx
      · exact h1
      · exact hold x (List.mem_cons_of_mem _ hx)
  | stEnd r i old rest h hi => rw [h] at hold; exact ⟨he, fun x hx => hold x (List.mem_cons_of_mem _ hx)⟩
  | raiseCs r m rest h =>
    rw [h] at hold
    refine ⟨he, fun x hx => ?_⟩
    rcases List.mem_cons.1 hx with rfl | hx
    · trivial
    · exact hold x (List.mem_cons_of_mem _ hx)
  | unlockCs r m rest h => rw [h] at hold; exact ⟨he, fun x hx => hold x (List.mem_cons_of_mem _ hx)⟩
  | nvicMask k hc =>
    refine ⟨?_, hold⟩
    unfold enabled at he ⊢
    by_cases e : n / 32 = k / 32
    · show (upd s.en (k / 32) _ (n / 32)).getLsbD (n % 32) = false
      rw [e] at he
      rw [e, upd_same, BitVec.getLsbD_and, he]; rfl
    · show (upd s.en (k / 32) _ (n / 32)).getLsbD (n % 32) = false
      rw [upd_ne _ _ e]; exact he
  | ret t rest h hne => rw [h] at hold; exact ⟨he, fun x hx => hold x (List.mem_cons_of_mem _ hx)⟩

/-- **C60** (what holds) An interrupt (in any mask or none) that is disabled while no `lock` is in progress, for instance because a task has just called `NVIC::mask` outside of all locks, stays disabled in every continuation, whatever is locked and released. -/
theorem C60_disabled_outside_locks_partial {c : Cfg} {s s' : St} {as : List Act} {n : Nat} (hx : Exec c s as s') (hno : ∀ x ∈ s.stack, ¬ InProgress x)
    (he : enabled s.en n = false) : enabled s'.en n = false := by
  have h0 : ∀ x ∈ s.stack, SavedOff n x := fun x hx => by
    have := hno x hx
    cases x <;> simp_all [InProgress, SavedOff]
  have key : enabled s'.en n = false ∧ ∀ x ∈ s'.stack, SavedOff n x := by
    induction hx with
    | nil => exact ⟨he, h0⟩
    | snoc h hs ih => exact off_step hs ih.1 ih.2
  exact key.1

/-- **C60** (what holds) An interrupt that no lock masks is never disabled by a lock or unlock: only by a call of `NVIC::mask` for it. -/
theorem C60_never_disabled_partial {c : Cfg} {s s' : St} {a : Act} {n : Nat} (hs : Step c s a s') (hm : ∀ r, (c.mask r).has n = false) (ha : a ≠ .nvicMask n)
    (he : enabled s.en n = true) : enabled s'.en n = true := by
  have hm' : ∀ r, (c.m r (n / 32)).getLsbD (n % 32) = false := hm
  have key : ∀ (cond v : BitVec 32) (i : Nat), (i = n / 32 → v.getLsbD (n % 32) = true) → enabled (guardUpd cond s.en i v) n = true := by
    intro cond v i hv
    unfold guardUpd
    split
    · unfold enabled
      by_cases e : n / 32 = i
      · subst e; rw [upd_same]; exact hv rfl
      · rw [upd_ne _ _ e]; exact he
    · exact he
  have h2 : (s.en (n / 32)).getLsbD (n % 32) = true := he
  cases hs with
  | cl r i old rest h hi =>
    refine key _ _ _ (fun e => ?_)
    subst e
    rw [BitVec.getLsbD_and, h2, BitVec.getLsbD_not, hm' r]
    simp [Nat.mod_lt]
  | st r i old rest h hi =>
    refine key _ _ _ (fun e => ?_)
    subst e
    rw [BitVec.getLsbD_or, h2]; rfl
  | nvicMask k hc =>
    have hkn : k ≠ n := fun e => ha (by rw [e])
    show (upd s.en (k / 32) _ (n / 32)).getLsbD (n % 32) = true
    by_cases e : n / 32 = k / 32
    · rw [e] at h2
      have h4 : k % 32 ≠ n % 32 := by omega
      rw [e, upd_same, BitVec.getLsbD_and, h2, BitVec.getLsbD_not, BitVec.getLsbD_shiftLeft]
      have h5 : n % 32 < 32 := Nat.mod_lt _ (by omega)
      by_cases h6 : n % 32 < k % 32
      · simp [h5, h6]
      · have h7 : n % 32 - k % 32 ≠ 0 := by omega
        simp [h5, h7]
    · rw [upd_ne _ _ e]; exact h2
  | _ => exact he

/-- a case of each: after the lock of `demo2` is over nothing is in progress and interrupt 5 is disabled; interrupt 7 is in no mask and enabled -/
example : (∀ x ∈ (⟨[.body 0], f3, false⟩ : St).stack, ¬ InProgress x) ∧ enabled f3 5 = false ∧ enabled f3 7 = true ∧ (demo2.mask 10).has 7 = false := by
  refine ⟨by simp [InProgress], by decide, by decide, by decide⟩

end Verif.SourceMask
