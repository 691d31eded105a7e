import Verif.SourceMask.Props

/-!
# C75: blocking by lower-priority tasks on targets without BASEPRI
-/

namespace Verif.SourceMask

/-! ## Specification -/

/-- in this record a lock has disabled interrupt `n` and not yet enabled it again, or all interrupts are disabled -/
def Masks (c : Cfg) (n : Nat) : Rec → Prop
  | .cl r i _ => n / 32 < i ∧ (c.mask r).has n = true
  | .lk r _ => (c.mask r).has n = true
  | .st r i _ => i ≤ n / 32 ∧ (c.mask r).has n = true
  | .cs _ _ => True
  | _ => False

/-- some task of priority less than `p` keeps interrupt `n` masked -/
def Blocked (c : Cfg) (p n : Nat) (l : List Rec) : Prop := ∃ x below, (x :: below) <:+ l ∧ Masks c n x ∧ ∃ t, top below = some t ∧ c.prio t < p

/-- An execution during which the interrupt of task `t` is pending and is not taken: whenever the hardware admits `t`, it starts some handler of at least this priority at once. No task calls `NVIC::mask`. -/
inductive Waiting (c : Cfg) (t : Nat) : St → List Act → St → Prop
  | nil (s) : Waiting c t s [] s
  | snoc {s s1 s2 as a} (h : Waiting c t s as s1) (hs : Step c s1 a s2) (hne : a ≠ .irq t) (hn : ∀ n, a ≠ .nvicMask n)
      (hu : ∀ cur, top s1.stack = some cur → admits c s1 cur t → ∃ t', a = .irq t' ∧ c.prio t ≤ c.prio t') : Waiting c t s (as ++ [a]) s2

/-! ## Proofs -/

theorem ok_suffix {c : Cfg} {e0 : Regs} {l l' : List Rec} (h : Ok c e0 l) (hs : l' <:+ l) : Ok c e0 l' := by
  obtain ⟨p, rfl⟩ := hs; exact ok_append h

theorem top_act {l : List Rec} {t : Nat} (h : top l = some t) : ∃ y ∈ l, ActivationOf t y := by
  induction l with
  | nil => cases h
  | cons x l ih =>
    cases x <;> simp only [top] at h <;>
      first
        | (cases h; exact ⟨_, List.mem_cons_self, rfl⟩)
        | (obtain ⟨y, hy, ha⟩ := ih h; exact ⟨y, List.mem_cons_of_mem _ hy, ha⟩)

theorem top_max {c : Cfg} {e0 : Regs} {l : List Rec} {cur t : Nat} {y : Rec} (h : Ok c e0 l) (ht : top l = some cur) (hy : y ∈ l) (ha : ActivationOf t y) : c.prio t ≤ c.prio cur := by
  induction l generalizing cur with
  | nil => cases hy
  | cons x l ih =>
    cases x with
    | body t' =>
      simp only [top] at ht; cases ht
      rcases List.mem_cons.mp hy with rfl | hy
      · simp only [ActivationOf] at ha; subst ha; exact Nat.le_refl _
      · have hne : l ≠ [] := by rintro rfl; cases hy
        obtain ⟨-, ⟨cur', h1, h2⟩, -⟩ := act_admitted h rfl hne
        have := ih (ok_append (l1 := [_]) h) h1 hy
        omega
    | _ =>
      simp only [top] at ht
      rcases List.mem_cons.mp hy with rfl | hy
      · exact ha.elim
      · exact ih (ok_append (l1 := [_]) h) ht hy

theorem top_suffix {c : Cfg} {e0 : Regs} {l l' : List Rec} {t cur : Nat} (hok : Ok c e0 l) (hs : l' <:+ l) (h1 : top l' = some t) (h2 : top l = some cur) : c.prio t ≤ c.prio cur := by
  obtain ⟨y, hy, ha⟩ := top_act h1
  exact top_max hok h2 (hs.subset hy) ha

theorem lock_owner {c : Cfg} {e0 : Regs} {x : Rec} {below : List Rec} {n : Nat} (h : Ok c e0 (x :: below)) (hb : Masks c n x) : ∃ t, top below = some t := by
  have : ∀ l : List Rec, inCode l = true → Ok c e0 l → ∃ t, top l = some t := by
    intro l
    induction l with
    | nil => intro h; simp [inCode] at h
    | cons y l ih =>
      intro h ho
      cases y with
      | body t => exact ⟨t, rfl⟩
      | lk r old => exact ih ho.2.2.2.1 ho.2.2.2.2
      | cs r m => exact ih ho.2.2.1 ho.2.2.2
      | _ => simp [inCode] at h
  cases x with
  | lk r cur => exact this below h.2.2.2.1 h.2.2.2.2
  | cl r i cur => exact this below h.2.2.2.1 h.2.2.2.2
  | st r i cur => exact this below h.2.2.2.1 h.2.2.2.2
  | cs r m => exact this below h.2.2.1 h.2.2.2
  | _ => exact hb.elim

theorem masked_false_of {l : List Rec} (h : ∀ r m, .cs r m ∉ l) : masked l = false := by
  induction l with
  | nil => rfl
  | cons x l ih =>
    have := ih (fun r m hm => h r m (List.mem_cons_of_mem _ hm))
    cases x <;> simp only [masked] <;> try exact this
    exact absurd List.mem_cons_self (h _ _)

theorem has_iff {c : Cfg} {r n : Nat} : (c.mask r).has n = true ↔ (c.m r (n / 32)).getLsbD (n % 32) = true := Iff.rfl

/-- what the records say about interrupt `n` -/
theorem exp_enabled {c : Cfg} {e0 : Regs} {n : Nat} (h0 : enabled e0 n = true) {l : List Rec} (h : ∀ x ∈ l, ¬ Masks c n x) : enabled (exp c e0 l) n = true := by
  induction l with
  | nil => exact h0
  | cons x l ih =>
    have := ih (fun y hy => h y (List.mem_cons_of_mem _ hy))
    have hx := h x List.mem_cons_self
    have key : ∀ r, (c.mask r).has n ≠ true → (exp c e0 l (n / 32) &&& ~~~c.m r (n / 32)).getLsbD (n % 32) = true := by
      intro r hr
      rw [ne_eq, has_iff] at hr
      rw [BitVec.getLsbD_and, BitVec.getLsbD_not, Bool.and_eq_true, Bool.and_eq_true]
      refine ⟨this, ?_, by simpa using hr⟩
      simp; omega
    cases x with
    | cl r i old =>
      simp only [Masks, not_and] at hx
      simp only [exp, enabled]
      split
      · exact key r (hx (by assumption))
      · exact this
    | lk r old => exact key r hx
    | st r i old =>
      simp only [Masks, not_and] at hx
      simp only [exp, enabled]
      split
      · exact this
      · exact key r (hx (by omega))
    | _ => exact this

/-- a masking record disables -/
theorem exp_disabled {c : Cfg} {e0 : Regs} {n : Nat} {x : Rec} {l : List Rec} (hx : Masks c n x) (hcs : ∀ r m, x ≠ .cs r m) : enabled (exp c e0 (x :: l)) n = false := by
  have key : ∀ r, (c.mask r).has n = true → (exp c e0 l (n / 32) &&& ~~~c.m r (n / 32)).getLsbD (n % 32) = false := by
    intro r hr
    rw [has_iff] at hr
    rw [BitVec.getLsbD_and, BitVec.getLsbD_not, hr]; simp
  cases x with
  | cl r i old => simp only [Masks] at hx; simp only [exp, enabled]; rw [if_pos hx.1]; exact key r hx.2
  | lk r old => exact key r hx
  | st r i old => simp only [Masks] at hx; simp only [exp, enabled]; rw [if_neg (by omega)]; exact key r hx.2
  | cs r m => exact absurd rfl (hcs r m)
  | _ => exact hx.elim

theorem admitted_of_free {c : Cfg} {e0 : Regs} {s : St} (hi : Inv c e0 s) (he : Exact c e0 s) {t cur n : Nat} (hbind : c.bind t = some n) (h0 : enabled e0 n = true)
    (hc : top s.stack = some cur) (hlt : c.prio cur < c.prio t) (hb : ¬ Blocked c (c.prio t) n s.stack) : admits c s cur t := by
  have no : ∀ x, x ∈ s.stack → ¬ Masks c n x := by
    intro x hx hbl
    obtain ⟨l1, l2, hl⟩ := List.append_of_mem hx
    have hsuf : (x :: l2) <:+ s.stack := ⟨l1, hl.symm⟩
    obtain ⟨t', ht'⟩ := lock_owner (ok_suffix hi.ok hsuf) hbl
    have := top_suffix hi.ok ((List.suffix_cons x l2).trans hsuf) ht' hc
    exact hb ⟨x, l2, hsuf, hbl, t', ht', by omega⟩
  refine ⟨by rw [hi.pm]; exact masked_false_of (fun r m hm => no _ hm trivial), hlt, fun n' hn' => ?_⟩
  rw [hbind] at hn'; cases hn'
  rw [he.en]; exact exp_enabled h0 no

theorem exact_start {c : Cfg} {idle : Nat} (e0 : Regs) : Exact c e0 (start idle e0) := ⟨trivial, rfl⟩

/-- **C75** Whenever a task of lower priority runs and no such task keeps the interrupt masked, the interrupt can start at once (if it was enabled by the startup code, and no task calls `NVIC::mask`). -/
theorem C75_free_to_start_partial {c : Cfg} (hwf : WellFormed c) {idle : Nat} (hidle : c.prio idle = 0) {e0 : Regs} {as : List Act} {s : St} (hx : Exec c (start idle e0) as s) (hn : ∀ n, .nvicMask n ∉ as)
    {t cur n : Nat} (hbind : c.bind t = some n) (h0 : enabled e0 n = true) (hc : top s.stack = some cur) (hlt : c.prio cur < c.prio t) (hb : ¬ Blocked c (c.prio t) n s.stack) :
    ∃ s', Step c s (.irq t) s' :=
  have i0 := inv_start (c := c) e0 hidle
  ⟨_, .irq t cur hc (admitted_of_free (inv_exec hwf hx i0) (exact_exec hwf hx i0 (exact_start e0) hn) hbind h0 hc hlt hb)⟩

/-- one step while `t` waits and nobody blocks it -/
theorem waiting_step {c : Cfg} {e0 : Regs} {s s' : St} (hi : Inv c e0 s) (he : Exact c e0 s) {a : Act} {t n : Nat} (hbind : c.bind t = some n) (h0 : enabled e0 n = true) (hs : Step c s a s')
    (hu : ∀ cur, top s.stack = some cur → admits c s cur t → ∃ t', a = .irq t' ∧ c.prio t ≤ c.prio t')
    (hf : ¬ Blocked c (c.prio t) n s.stack) : ¬ Blocked c (c.prio t) n s'.stack := by
  rintro ⟨x, below, hsuf, hm, t1, ht1, hlt⟩
  -- not a blocker before: only the new top record can be one
  have old : (x :: below) <:+ s.stack → False := fun h => hf ⟨x, below, h, hm, t1, ht1, hlt⟩
  have nb : ∀ {y : Rec} {m : List Rec}, s'.stack = y :: m → m <:+ s.stack → ¬ Masks c n y → False := by
    intro y m h1 h2 h3
    rw [h1] at hsuf
    rcases List.suffix_cons_iff.1 hsuf with h | h
    · cases h; exact h3 hm
    · exact old (h.trans h2)
  have enter : ∀ {y z : Rec} {m : List Rec}, s.stack = z :: m → s'.stack = y :: m → top s.stack = top m → (∀ t', a ≠ .irq t') → False := by
    intro y z m h1 h2 h3 h5
    rw [h2] at hsuf
    rcases List.suffix_cons_iff.1 hsuf with h | h
    · cases h
      obtain ⟨t', ht', -⟩ := hu t1 (by rw [h3]; exact ht1) (admitted_of_free hi he hbind h0 (by rw [h3]; exact ht1) hlt hf)
      exact h5 t' ht'
    · exact old (by rw [h1]; exact h.trans (List.suffix_cons _ _))
  cases hs with
  | irq t' cur htop ha => exact nb rfl List.suffix_rfl id
  | lockCs t' r htop hc hu' hr => exact nb rfl List.suffix_rfl id
  | lock t' r htop hc hu' hr => exact nb rfl List.suffix_rfl id
  | userCs hc => exact nb rfl List.suffix_rfl id
  | rd r i o rest h hi' => exact nb rfl (by rw [h]; exact List.suffix_cons _ _) id
  | rdEnd r i o rest h hi' => exact enter h rfl (by rw [h]; rfl) (by simp)
  | cl r i o rest h hi' => exact enter h rfl (by rw [h]; rfl) (by simp)
  | clEnd r i o rest h hi' => exact enter h rfl (by rw [h]; rfl) (by simp)
  | unlock r o rest h => exact enter h rfl (by rw [h]; rfl) (by simp)
  | st r i o rest h hi' => exact enter h rfl (by rw [h]; rfl) (by simp)
  | stEnd r i o rest h hi' => exact old (hsuf.trans (by rw [h]; exact List.suffix_cons _ _))
  | raiseCs r m rest h => exact enter h rfl (by rw [h]; rfl) (by simp)
  | unlockCs r m rest h => exact old (hsuf.trans (by rw [h]; exact List.suffix_cons _ _))
  | nvicMask k hc => exact old hsuf
  | ret t' rest h hne' => exact old (hsuf.trans (by rw [h]; exact List.suffix_cons _ _))

theorem Waiting.exec {c : Cfg} {t : Nat} {s0 s : St} {as : List Act} (hw : Waiting c t s0 as s) : Exec c s0 as s ∧ ∀ n, .nvicMask n ∉ as := by
  induction hw with
  | nil => exact ⟨.nil _, by simp⟩
  | snoc h hs hne hn hu ih =>
    refine ⟨.snoc ih.1 hs, fun n hm => ?_⟩
    rcases List.mem_append.1 hm with hm | hm
    · exact ih.2 n hm
    · simp only [List.mem_singleton] at hm; exact hn n hm.symm

/-- **C75** (blocked at most once) While task `t` waits: from the first moment at which no lower-priority task masks its interrupt, none will before it starts. -/
theorem C75_never_blocked_later_partial {c : Cfg} (hwf : WellFormed c) {idle : Nat} (hidle : c.prio idle = 0) {e0 : Regs} {as0 as : List Act} {s0 s : St} (hx : Exec c (start idle e0) as0 s0) (hn : ∀ n, .nvicMask n ∉ as0)
    {t n : Nat} (hbind : c.bind t = some n) (h0 : enabled e0 n = true) (hw : Waiting c t s0 as s) (hf : ¬ Blocked c (c.prio t) n s0.stack) : ¬ Blocked c (c.prio t) n s.stack := by
  have i0 := inv_start (c := c) e0 hidle
  induction hw with
  | nil => exact hf
  | snoc h hs hne hn' hu ih =>
    obtain ⟨he, hm⟩ := h.exec
    have hex := hx.trans he
    have hno : ∀ k, .nvicMask k ∉ as0 ++ _ := fun k hk => (List.mem_append.1 hk).elim (hn k) (hm k)
    exact waiting_step (inv_exec hwf hex i0) (exact_exec hwf hex i0 (exact_start e0) hno) hbind h0 hs hu ih

/-- an interrupt of at most the same priority in the same register (chunk) is not enabled while `n` is masked by a lock -/
theorem lower_masked {c : Cfg} (hwf : WellFormed c) {p n : Nat} (huniq : ∀ q, (q, n) ∈ c.irqs → q = p) {e0 : Regs} {l : List Rec} (hok : Ok c e0 l) {x : Rec} (hxm : x ∈ l) {p' n' : Nat}
    (hsame : n' / 32 = n / 32) (hM : Masks c n x) (hcs : ∀ r m, x ≠ .cs r m) (hlist' : (p', n') ∈ c.irqs) (h1 : 1 ≤ p') (hle : p' ≤ p) : enabled (exp c e0 l) n' = false := by
  cases hen' : enabled (exp c e0 l) n' with
  | false => rfl
  | true =>
    obtain ⟨l1, l2, hl⟩ := List.append_of_mem hxm
    rw [hl] at hen'
    have hen2 : enabled (exp c e0 (x :: l2)) n' = true := exp_mono l1 _ _ _ hen'
    have both : ∀ r, ¬ c.ceil r ≥ 4 → (c.mask r).has n = true → (c.mask r).has n' = true := by
      intro r hr hh
      unfold Cfg.mask at hh ⊢
      rw [(computeMask_spec hwf.masks (by omega)).2] at hh ⊢
      obtain ⟨q, h1, h2⟩ := hh
      have := huniq _ h1
      exact ⟨p', hlist', by omega⟩
    have hokx : Ok c e0 (x :: l2) := ok_suffix hok ⟨l1, hl.symm⟩
    have hM' : Masks c n' x := by
      cases x with
      | cl r i old => exact ⟨by have := hM.1; omega, both r hokx.2.1 hM.2⟩
      | lk r old => exact both r hokx.2.1 hM
      | st r i old => exact ⟨by have := hM.1; omega, both r hokx.2.1 hM.2⟩
      | cs r m => exact absurd rfl (hcs r m)
      | _ => exact hM.elim
    rw [exp_disabled hM' hcs] at hen2
    cases hen2

/-- **C75** (interrupts of lower priority than the task in the register of its own interrupt, in particular: up to 32 interrupts) At any moment, all locks that mask the interrupt of a task and are held by lower-priority tasks belong to one activation of one task: no interrupt-bound task was started between two of them. -/
theorem C75_single_blocker_partial {c : Cfg} (hwf : WellFormed c)
    {idle : Nat} (hidle : c.prio idle = 0) {e0 : Regs} {as : List Act} {s : St} (hx : Exec c (start idle e0) as s) {t n : Nat} (_hbind : c.bind t = some n)
    (hsame : ∀ q m, (q, m) ∈ c.irqs → 1 ≤ q → q < c.prio t → m / 32 = n / 32) (huniq : ∀ q, (q, n) ∈ c.irqs → q = c.prio t)
    {above mid below : List Rec} {x1 x2 : Rec} {t1 : Nat} (hst : s.stack = above ++ x1 :: (mid ++ x2 :: below))
    (ht1 : top (mid ++ x2 :: below) = some t1) (hlt : c.prio t1 < c.prio t) (h2 : Masks c n x2) : ∀ t' n', c.bind t' = some n' → ∀ y ∈ mid, ¬ ActivationOf t' y := by
  intro t' n' hb' y hy ha
  have hi := inv_exec hwf hx (inv_start e0 hidle)
  have hok : Ok c e0 (mid ++ x2 :: below) := by
    have := hi.ok; rw [hst] at this; exact ok_append (l1 := [x1]) (ok_append this)
  have hle := top_max hok ht1 (List.mem_append_left _ hy) ha
  obtain ⟨p1, p2, rfl⟩ := List.append_of_mem hy
  rw [List.append_assoc, List.cons_append] at hok
  have hok' := ok_append hok
  obtain ⟨hm, ⟨cur, hcur, hlt'⟩, hen⟩ := act_admitted hok' ha (by simp)
  have hmem : x2 ∈ p2 ++ x2 :: below := by simp
  have hcs : ∀ r m, x2 ≠ .cs r m := by
    rintro r m rfl; rw [masked_of_mem hmem] at hm; cases hm
  have := lower_masked hwf huniq (ok_append (l1 := [y]) hok') hmem (hsame _ _ (hwf.listed t' n' hb' (by omega)) (by omega) (by omega)) h2 hcs (hwf.listed t' n' hb' (by omega)) (by omega) (by omega)
  exact absurd ((hen n' hb').symm.trans this) (by simp)

/-- **C75** (interrupts of lower priority than the task in the register of its own interrupt, in particular: up to 32 interrupts) While task `t` waits, no interrupt-bound task of lower priority is started. Missing: interrupts of lower priority in
other registers, for which this is false (`C75_inversion_violated`, and for every application `C75_other_register_violated`). -/
theorem C75_no_lower_starts_partial {c : Cfg} (hwf : WellFormed c)
    {idle : Nat} (hidle : c.prio idle = 0) {e0 : Regs} {as0 as : List Act} {s0 s : St} (hx : Exec c (start idle e0) as0 s0) (hn : ∀ n, .nvicMask n ∉ as0)
    {t n : Nat} (hbind : c.bind t = some n)
    (hsame : ∀ q m, (q, m) ∈ c.irqs → 1 ≤ q → q < c.prio t → m / 32 = n / 32) (huniq : ∀ q, (q, n) ∈ c.irqs → q = c.prio t)
    (h0 : enabled e0 n = true) (hw : Waiting c t s0 as s) {t' n' : Nat} (hm : .irq t' ∈ as) (hbind' : c.bind t' = some n') :
    c.prio t ≤ c.prio t' := by
  have i0 := inv_start (c := c) e0 hidle
  induction hw with
  | nil => cases hm
  | snoc h hs hne hn' hu ih =>
    rcases List.mem_append.1 hm with hm | hm
    · exact ih hm
    · simp only [List.mem_singleton] at hm
      subst hm
      obtain ⟨he, hmm⟩ := h.exec
      have hex := hx.trans he
      have hno : ∀ k, .nvicMask k ∉ as0 ++ _ := fun k hk => (List.mem_append.1 hk).elim (hn k) (hmm k)
      have hi := inv_exec hwf hex i0
      have hexa := exact_exec hwf hex i0 (exact_start e0) hno
      cases hs with
      | irq _ cur htop ha =>
        rcases Nat.lt_or_ge (c.prio t') (c.prio t) with hlt | hge
        · obtain ⟨t2, e, hge⟩ := hu cur htop (by
            refine ⟨ha.1, by have := ha.2.1; omega, fun k hk => ?_⟩
            rw [hbind] at hk; cases hk
            rw [hexa.en]
            have hen' := ha.2.2 n' hbind'
            rw [hexa.en] at hen'
            apply exp_enabled h0
            intro x hxm hM
            have hcs : ∀ r m, x ≠ .cs r m := by
              rintro r m rfl
              have := masked_of_mem hxm
              rw [← hi.pm, ha.1] at this; cases this
            have := lower_masked hwf huniq hi.ok hxm (hsame _ _ (hwf.listed t' n' hbind' (by have := ha.2.1; omega)) (by have := ha.2.1; omega) hlt) hM hcs (hwf.listed t' n' hbind' (by have := ha.2.1; omega)) (by have := ha.2.1; omega) (by omega)
            rw [this] at hen'; cases hen')
          cases e; exact hge
        · exact hge

/-! ## The violation: more than 32 interrupts

Idle (task 0) and task 2 (priority 2, interrupt 5) share resource 10, with ceiling 2. Task 1 (priority 1, interrupt 40) does not use it. Task 4 (priority 1) is bound to an exception and does not use it. -/

def demo3 : Cfg :=
  { prio := fun t => if t = 1 then 1 else if t = 2 then 2 else if t = 4 then 1 else 0
    bind := fun t => if t = 1 then some 40 else if t = 2 then some 5 else none
    uses := fun t r => r = 10 ∧ (t = 0 ∨ t = 2)
    ceil := fun r => if r = 10 then 2 else 0
    irqs := [(1, 40), (2, 5)]
    masks := [[0#32, 256#32], [32#32, 0#32], [0#32, 0#32]] }

theorem demo3_wf : WellFormed demo3 := by
  refine ⟨by decide, fun t n hb hp => ?_, fun t r hu => ?_⟩
  · simp only [demo3] at hb hp ⊢
    by_cases h1 : t = 1
    · subst h1; simp at hb; subst hb; decide
    · by_cases h2 : t = 2
      · subst h2; simp at hb; subst hb; decide
      · simp [h1, h2] at hb
  · obtain ⟨rfl, rfl | rfl⟩ := hu <;> decide

/-- both interrupts enabled -/
def en3 : Regs := fun i => if i = 0 then 32#32 else if i = 1 then 256#32 else 0#32

def old3 : Regs := guardUpd (demo3.m 10 1) (guardUpd (demo3.m 10 0) (fun _ => 0#32) 0 (en3 0)) 1 (en3 1)
def en3a : Regs := guardUpd (demo3.m 10 0) en3 0 (en3 0 &&& ~~~(demo3.m 10 0))

/-- idle is between the two writes of `clear_enable_mask` -/
theorem demo3_half : Exec demo3 (start 0 en3) ([] ++ [.lock 10] ++ [.acc] ++ [.acc] ++ [.acc] ++ [.acc]) ⟨[.cl 10 1 old3, .body 0], en3a, false⟩ := by
  have hN : nChunks demo3.irqs = 2 := rfl
  exact .snoc (.snoc (.snoc (.snoc (.snoc (.nil _) (.lock 0 10 rfl rfl ⟨rfl, .inl rfl⟩ (by decide)))
    (.rd 10 0 _ _ rfl (by rw [hN]; omega))) (.rd 10 1 _ _ rfl (by rw [hN]; omega))) (.rdEnd 10 2 _ _ rfl (by rw [hN]; omega)))
    (.cl 10 0 _ _ rfl (by rw [hN]; omega))

/-- **C75** (false with more than 32 interrupts) There is an accepted application, with all interrupts enabled and no call of `NVIC::mask`, in which a task of priority 1 that shares nothing with anybody is started, runs and returns while a task of priority 2
is pending: idle has already masked the interrupt of the latter, in the first register, but not yet that of the former, in the second. -/
theorem C75_inversion_violated : ∃ (c : Cfg) (_ : WellFormed c) (idle : Nat) (e0 : Regs) (as0 : List Act) (s0 : St) (as : List Act) (s : St) (t t' n n' : Nat),
    c.prio idle = 0 ∧ Exec c (start idle e0) as0 s0 ∧ (∀ k, .nvicMask k ∉ as0) ∧ c.bind t = some n ∧ enabled e0 n = true ∧ c.bind t' = some n' ∧ (∀ r, ¬ c.uses t' r) ∧
      c.prio t' < c.prio t ∧ Waiting c t s0 as s ∧ as = [.irq t', .ret] := by
  refine ⟨demo3, demo3_wf, 0, en3, _, _, [] ++ [.irq 1] ++ [.ret], ⟨[.cl 10 1 old3, .body 0], en3a, false⟩, 2, 1, 5, 40, rfl, demo3_half, by simp, rfl, by decide, rfl, ?_, by decide, ?_, rfl⟩
  · rintro r ⟨-, h | h⟩ <;> cases h
  · refine .snoc (.snoc (.nil _) (.irq 1 0 rfl ⟨rfl, by decide, fun n hn => ?_⟩) (by simp) (by simp) ?_) (.ret 1 _ rfl (by simp)) (by simp) (by simp) ?_
    · have : n = 40 := by simpa [demo3] using hn.symm
      subst this; decide
    · exact fun cur _ ha => absurd (ha.2.2 5 rfl) (by decide)
    · exact fun cur _ ha => absurd (ha.2.2 5 rfl) (by decide)

/-- **C75** (false for exception-bound tasks) The same with a task of priority 1 bound to an exception, on any number of interrupts: no lock masks exceptions, so while a lock on a resource of ceiling 2 blocks a task of priority 2, a task of priority 1 that does not use it is started. -/
theorem C75_exception_violated : ∃ (c : Cfg) (_ : WellFormed c) (idle : Nat) (e0 : Regs) (as0 : List Act) (s0 : St) (as : List Act) (s : St) (t t' n : Nat),
    nChunks c.irqs = 1 ∧ c.prio idle = 0 ∧ Exec c (start idle e0) as0 s0 ∧ (∀ k, .nvicMask k ∉ as0) ∧ c.bind t = some n ∧ enabled e0 n = true ∧ c.bind t' = none ∧ (∀ r, ¬ c.uses t' r) ∧
      c.prio t' < c.prio t ∧ Waiting c t s0 as s ∧ as = [.irq t', .ret] := by
  let c : Cfg := { demo3 with bind := fun t => if t = 2 then some 5 else none, irqs := [(2, 5)], masks := [[0#32], [32#32], [0#32]] }
  have hwf : WellFormed c := by
    refine ⟨by decide, fun t n hb hp => ?_, fun t r hu => ?_⟩
    · simp only [c] at hb hp ⊢
      by_cases h2 : t = 2
      · subst h2; simp at hb; subst hb; decide
      · simp [h2] at hb
    · obtain ⟨rfl, rfl | rfl⟩ := hu <;> decide
  have hN : nChunks c.irqs = 1 := by decide
  have hx : Exec c (start 0 en3) ([] ++ [.lock 10] ++ [.acc] ++ [.acc] ++ [.acc] ++ [.acc])
      ⟨[.lk 10 (guardUpd (c.m 10 0) (fun _ => 0#32) 0 (en3 0)), .body 0], guardUpd (c.m 10 0) en3 0 (en3 0 &&& ~~~(c.m 10 0)), false⟩ :=
    .snoc (.snoc (.snoc (.snoc (.snoc (.nil _) (.lock 0 10 rfl rfl ⟨rfl, .inl rfl⟩ (by decide)))
      (.rd 10 0 _ _ rfl (by rw [hN]; omega))) (.rdEnd 10 1 _ _ rfl (by rw [hN]; omega)))
      (.cl 10 0 _ _ rfl (by rw [hN]; omega))) (.clEnd 10 1 _ _ rfl (by rw [hN]; omega))
  refine ⟨c, hwf, 0, en3, _, _, [] ++ [.irq 4] ++ [.ret],
    ⟨[.lk 10 (guardUpd (c.m 10 0) (fun _ => 0#32) 0 (en3 0)), .body 0], guardUpd (c.m 10 0) en3 0 (en3 0 &&& ~~~(c.m 10 0)), false⟩, 2, 4, 5, hN, rfl, hx, by simp, rfl, by decide, rfl, ?_, by decide, ?_, rfl⟩
  · rintro r ⟨-, h | h⟩ <;> cases h
  · refine .snoc (.snoc (.nil _) (.irq 4 0 rfl ⟨rfl, by decide, fun n hn => ?_⟩) (by simp) (by simp) ?_) (.ret 4 _ rfl (by simp)) (by simp) (by simp) ?_
    · simp [c] at hn
    · exact fun cur _ ha => absurd (ha.2.2 5 rfl) (by decide)
    · exact fun cur _ ha => absurd (ha.2.2 5 rfl) (by decide)

/-- Non-vacuity of the partial theorems: two registers, the interrupts of priority 1 and 2 in one of them; task 2 waits while idle leaves its lock. -/
example : ∃ (c : Cfg) (_ : WellFormed c) (e0 : Regs) (as0 as : List Act) (s0 s : St), nChunks c.irqs = 2 ∧ (∀ q m, (q, m) ∈ c.irqs → 1 ≤ q → q < c.prio 2 → m / 32 = 5 / 32) ∧ (∀ q, (q, 5) ∈ c.irqs → q = c.prio 2) ∧ c.prio 0 = 0 ∧ Exec c (start 0 e0) as0 s0 ∧ (∀ k, .nvicMask k ∉ as0) ∧
    c.bind 2 = some 5 ∧ enabled e0 5 = true ∧ Waiting c 2 s0 as s ∧ as.length = 2 ∧ Blocked c (c.prio 2) 5 s0.stack ∧ admits c s 0 2 := by
  let c : Cfg := { demo3 with bind := fun t => if t = 1 then some 7 else if t = 2 then some 5 else none, irqs := [(1, 7), (2, 5), (3, 40)], masks := [[128#32, 0#32], [32#32, 0#32], [0#32, 256#32]] }
  have hwf : WellFormed c := by
    refine ⟨by decide, fun t n hb hp => ?_, fun t r hu => ?_⟩
    · simp only [c] at hb hp ⊢
      by_cases h1 : t = 1
      · subst h1; simp at hb; subst hb; decide
      · by_cases h2 : t = 2
        · subst h2; simp at hb; subst hb; decide
        · simp [h1, h2] at hb
    · obtain ⟨rfl, rfl | rfl⟩ := hu <;> decide
  have hN : nChunks c.irqs = 2 := by decide
  let e0 : Regs := fun i => if i = 0 then 160#32 else 0#32
  let old : Regs := guardUpd (c.m 10 1) (guardUpd (c.m 10 0) (fun _ => 0#32) 0 (e0 0)) 1 (e0 1)
  let e1 : Regs := guardUpd (c.m 10 0) e0 0 (e0 0 &&& ~~~(c.m 10 0))
  let e2 : Regs := guardUpd (c.m 10 1) e1 1 (e1 1 &&& ~~~(c.m 10 1))
  have hx : Exec c (start 0 e0) ([] ++ [.lock 10] ++ [.acc] ++ [.acc] ++ [.acc] ++ [.acc] ++ [.acc] ++ [.acc]) ⟨[.lk 10 old, .body 0], e2, false⟩ :=
    .snoc (.snoc (.snoc (.snoc (.snoc (.snoc (.snoc (.nil _) (.lock 0 10 rfl rfl ⟨rfl, .inl rfl⟩ (by decide)))
      (.rd 10 0 _ _ rfl (by rw [hN]; omega))) (.rd 10 1 _ _ rfl (by rw [hN]; omega))) (.rdEnd 10 2 _ _ rfl (by rw [hN]; omega)))
      (.cl 10 0 _ _ rfl (by rw [hN]; omega))) (.cl 10 1 _ _ rfl (by rw [hN]; omega))) (.clEnd 10 2 _ _ rfl (by rw [hN]; omega))
  refine ⟨c, hwf, e0, _, [] ++ [.unlock] ++ [.acc], _, ⟨[.st 10 1 old, .body 0], guardUpd (c.m 10 0) e2 0 (e2 0 ||| old 0), false⟩, hN, ?_, ?_, rfl, hx, by simp, rfl, by decide, ?_, rfl, ?_, ?_⟩
  · intro q m h1 h2 h3
    have : c.prio 2 = 2 := rfl
    simp [c] at h1; omega
  · intro q h1
    have : c.prio 2 = 2 := rfl
    simp [c] at h1; omega
  · refine .snoc (.snoc (.nil _) (.unlock 10 _ _ rfl) (by simp) (by simp) ?_) (.st 10 0 _ _ rfl (by rw [hN]; omega)) (by simp) (by simp) ?_
    · exact fun cur _ ha => absurd (ha.2.2 5 rfl) (by decide)
    · exact fun cur _ ha => absurd (ha.2.2 5 rfl) (by decide)
  · exact ⟨.lk 10 old, _, List.suffix_rfl, by show (c.mask 10).has 5 = true; decide, 0, rfl, by decide⟩
  · refine ⟨rfl, by decide, fun n hn => ?_⟩
    have : n = 5 := by simpa [c] using hn.symm
    subst this; decide

end Verif.SourceMask
