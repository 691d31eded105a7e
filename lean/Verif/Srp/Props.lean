import Verif.Srp.Lemmas

/-!
# C46, C47, C48, C52
-/

namespace Verif.Srp

/-! ## C48 -/

/-- for 1 to 7 priority bits no operation overflows -/
theorem rust_logical2hw (checks : Bool) {bits p : Nat} (hb : 1 ≤ bits ∧ bits ≤ 7) (hp : p ≤ 2 ^ bits) : cortexLogical2hw checks (BitVec.ofNat 8 p) (BitVec.ofNat 8 bits) = some (logical2hw (BitVec.ofNat 8 p) (BitVec.ofNat 8 bits)) := by
  have h128 := pow_le_128 hb.2
  have h1 : (BitVec.ofNat 8 bits).toNat = bits := by rw [BitVec.toNat_ofNat]; omega
  have h2 : (8#8 - BitVec.ofNat 8 bits).toNat = 8 - bits := by
    rw [BitVec.toNat_sub, h1]
    have : (8#8).toNat = 8 := rfl
    omega
  have h3 : (BitVec.ofNat 8 p).toNat = p := by rw [BitVec.toNat_ofNat]; omega
  have h4 : (1#8 <<< bits).toNat = 2 ^ bits := by
    rw [BitVec.toNat_shiftLeft, BitVec.toNat_ofNat, Nat.shiftLeft_eq]
    have : (1 % 2 ^ 8 * 2 ^ bits) = 2 ^ bits := by simp
    rw [this]; omega
  have e1 : shlU8 checks 1#8 (BitVec.ofNat 8 bits) = some (1#8 <<< bits) := by unfold shlU8; rw [h1, if_pos (by omega)]
  have e2 : subU8 checks (1#8 <<< bits) (BitVec.ofNat 8 p) = some (1#8 <<< bits - BitVec.ofNat 8 p) := by unfold subU8; rw [h3, h4, if_pos hp]
  have e3 : subU8 checks 8#8 (BitVec.ofNat 8 bits) = some (8#8 - BitVec.ofNat 8 bits) := by unfold subU8; rw [h1, if_pos (by show bits ≤ 8; omega)]
  have e4 : ∀ y, shlU8 checks y (8#8 - BitVec.ofNat 8 bits) = some (y <<< (8 - bits)) := by intro y; unfold shlU8; rw [h2, if_pos (by omega)]
  unfold cortexLogical2hw logical2hw
  rw [e1, Option.bind_some, e2, Option.bind_some, e3, Option.bind_some, e4, h1, h2]

/-- **C48** (partial: for 1 to 7 priority bits; see `C48_eight_bits_violated`) For logical priorities 1 .. `2^bits`, with or without overflow checks, the function returns, the encoding uses only the implemented (upper) bits, and reverses the order; it is injective. -/
theorem C48_encoding_partial (checks : Bool) (bits p q : Nat) (hb : 1 ≤ bits ∧ bits ≤ 7) (hp : 1 ≤ p ∧ p ≤ 2 ^ bits) (hq : 1 ≤ q ∧ q ≤ 2 ^ bits) :
    ∃ a b, cortexLogical2hw checks (BitVec.ofNat 8 p) (BitVec.ofNat 8 bits) = some a ∧ cortexLogical2hw checks (BitVec.ofNat 8 q) (BitVec.ofNat 8 bits) = some b ∧
      (p < q ↔ b.toNat < a.toNat) ∧ (a = b → p = q) ∧ a.toNat % 2 ^ (8 - bits) = 0 := by
  have h1 : p < q ↔ hw bits q < hw bits p := (hw_lt hb.2 hq.1 hq.2 hp.1 hp.2).symm
  have h2 : q < p ↔ hw bits p < hw bits q := (hw_lt hb.2 hp.1 hp.2 hq.1 hq.2).symm
  refine ⟨_, _, rust_logical2hw checks hb hp.2, rust_logical2hw checks hb hq.2, h1, fun he => ?_, ?_⟩
  · have : hw bits p = hw bits q := by unfold hw; rw [he]
    omega
  · show hw bits p % _ = 0
    rw [hw_pos hb.2 hp.1 hp.2]; simp

/-- **C48** (partial: for 1 to 7 priority bits) Priority 0 (no interrupt) is encoded as 0, which BASEPRI interprets as "nothing masked"; of the priorities 1 .. `2^bits` only the highest one has this value. -/
theorem C48_zero_partial (checks : Bool) (bits p : Nat) (hb : 1 ≤ bits ∧ bits ≤ 7) (hp : 1 ≤ p ∧ p ≤ 2 ^ bits) :
    cortexLogical2hw checks 0#8 (BitVec.ofNat 8 bits) = some 0#8 ∧ (cortexLogical2hw checks (BitVec.ofNat 8 p) (BitVec.ofNat 8 bits) = some 0#8 ↔ p = 2 ^ bits) := by
  constructor
  · have h0 : hw bits 0 = 0 := hw_zero hb.2
    rw [show (0#8 : BitVec 8) = BitVec.ofNat 8 0 from rfl, rust_logical2hw checks hb (Nat.zero_le _)]
    congr 1
    apply BitVec.eq_of_toNat_eq; exact h0
  · rw [rust_logical2hw checks hb hp.2, Option.some.injEq, ← BitVec.toNat_inj]; exact hw_eq_zero hb.2 hp.1 hp.2

/-- **C48** violated for 8 priority bits, which the Cortex-M architecture allows: with overflow checks the function panics for every priority; without, priority 1 is encoded as 0, the most urgent value, and priority 2 as 255, the least urgent one. -/
theorem C48_eight_bits_violated : (∀ p, cortexLogical2hw true p 8#8 = none) ∧ cortexLogical2hw false 1#8 8#8 = some 0#8 ∧ cortexLogical2hw false 2#8 8#8 = some 255#8 :=
  ⟨fun _ => rfl, rfl, rfl⟩

example : cortexLogical2hw true 1#8 4#8 = some 0xf0#8 ∧ cortexLogical2hw true 15#8 4#8 = some 0x10#8 ∧ cortexLogical2hw true 16#8 4#8 = some 0#8 ∧ cortexLogical2hw true 1#8 3#8 = some 0xe0#8 := by decide

/-! ## C46 -/

theorem level_ge {c : Cfg} {l : List Rec} {r cur : Nat} (h : .lk r cur ∈ l) : c.ceil r ≤ level c l := by
  induction l with
  | nil => cases h
  | cons x l ih =>
    rcases List.mem_cons.mp h with rfl | h
    · simp only [level]; omega
    · have := ih h
      cases x <;> simp only [level] <;> omega

theorem masked_of_mem {l : List Rec} {r : Option Nat} {m : Bool} (h : .cs r m ∈ l) : masked l = true := by
  induction l with
  | nil => cases h
  | cons x l ih =>
    rcases List.mem_cons.mp h with rfl | h'
    · rfl
    · have := ih h'
      cases x <;> simp only [masked] <;> exact this

theorem ok_append {c : Cfg} {l1 l2 : List Rec} (h : Ok c (l1 ++ l2)) : Ok c l2 := by
  induction l1 with
  | nil => exact h
  | cons x l ih =>
    rw [List.cons_append] at h
    cases x <;> first | exact ih h.2 | exact ih h.2.2.2.2 | exact ih h.2.2.2

/-- an activation above something was admitted by it -/
theorem act_admitted {c : Cfg} {x : Rec} {rest : List Rec} {t : Nat} (h : Ok c (x :: rest)) (ha : ActivationOf t x) (hne : rest ≠ []) :
    masked rest = false ∧ level c rest < c.prio t ∧ ∃ cur, top rest = some cur ∧ c.prio cur < c.prio t := by
  cases x <;> simp only [ActivationOf] at ha <;> try exact ha.elim
  · subst ha; exact h.1
  · subst ha
    rcases h.1 with h1 | h1
    · exact absurd h1.1 hne
    · exact h1.2
  · subst ha; exact h.1

/-- **C46** Mutual exclusion. In every reachable state — any application whose ceilings bound the priorities of the users, any nesting of locks and critical sections, any arrival of interrupts at any point — if the stack contains a
task inside `lock` on resource `r` (record `x`), then no task that was started on top of it (any activation `y` above `x`) uses `r`. -/
theorem C46_mutual_exclusion {c : Cfg} (hwf : WellFormed c) {idle : Nat} (hidle : c.prio idle = 0) {as : List Act} {s : St} (hx : Exec c (start idle) as s)
    {above below : List Rec} {x y : Rec} {r t : Nat} (hst : s.stack = above ++ x :: below) (hl : InsideLock r x)
    (hy : y ∈ above) (ht : ActivationOf t y) : ¬ c.uses t r := by
  intro hu
  have hi := inv_exec hwf hx (inv_start hwf hidle)
  obtain ⟨p1, p2, rfl⟩ := List.append_of_mem hy
  have hok := hi.ok
  rw [hst, List.append_assoc, List.cons_append] at hok
  have hok2 := ok_append hok
  obtain ⟨hm, hlv, -⟩ := act_admitted hok2 ht (by simp)
  have hmem : x ∈ p2 ++ x :: below := by simp
  cases x with
  | lk r' cur =>
    simp only [InsideLock] at hl; subst hl
    have := level_ge (c := c) hmem
    have := hwf.ceil t r' hu
    omega
  | cs r' m =>
    rw [masked_of_mem hmem] at hm; cases hm
  | _ => exact hl

theorem top_append {l1 l2 : List Rec} {t : Nat} (h : top (l1 ++ l2) = some t) : (∃ y ∈ l1, ActivationOf t y) ∨ top l2 = some t := by
  induction l1 with
  | nil => exact .inr h
  | cons x l ih =>
    rw [List.cons_append] at h
    cases x <;> simp only [top] at h <;>
      first
        | (cases h; exact .inl ⟨_, List.mem_cons_self, rfl⟩)
        | (rcases ih h with ⟨y, hy, ha⟩ | h'
           · exact .inl ⟨y, List.mem_cons_of_mem _ hy, ha⟩
           · exact .inr h')

/-- **C46** (no simultaneous access) If two records are inside `lock` on the same resource, no task was started between them: they belong to the same activation of the same task. -/
theorem C46_one_holder {c : Cfg} (hwf : WellFormed c) {idle : Nat} (hidle : c.prio idle = 0) {as : List Act} {s : St} (hx : Exec c (start idle) as s)
    {above mid below : List Rec} {x1 x2 : Rec} {r : Nat} (hst : s.stack = above ++ x1 :: (mid ++ x2 :: below))
    (h1 : InsideLock r x1) (h2 : InsideLock r x2) : ∀ t, ∀ y ∈ mid, ¬ ActivationOf t y := by
  intro t y hy ha
  have hi := inv_exec hwf hx (inv_start hwf hidle)
  have hok := hi.ok
  rw [hst] at hok
  have hok1 := ok_append hok
  -- the task holding `x1`
  have hu : ∃ t', top (mid ++ x2 :: below) = some t' ∧ c.uses t' r := by
    cases x1 with
    | lk r' cur => simp only [InsideLock] at h1; subst h1; exact hok1.2.2.1
    | cs r' m =>
      cases r' with
      | none => exact h1.elim
      | some r' => simp only [InsideLock] at h1; subst h1; exact (hok1.2.1 r' rfl).2
    | _ => exact h1.elim
  obtain ⟨t', htop, hu⟩ := hu
  -- its activation is in `mid`, since `mid` contains an activation
  have hex : ∃ y' ∈ mid, ActivationOf t' y' := by
    clear hok hok1 hst
    induction mid with
    | nil => cases hy
    | cons z mid ih =>
      rw [List.cons_append] at htop
      cases z with
      | enter _ => simp only [top] at htop; cases htop; exact ⟨_, List.mem_cons_self, rfl⟩
      | body _ _ => simp only [top] at htop; cases htop; exact ⟨_, List.mem_cons_self, rfl⟩
      | leave _ => simp only [top] at htop; cases htop; exact ⟨_, List.mem_cons_self, rfl⟩
      | _ =>
        simp only [top] at htop
        rcases List.mem_cons.mp hy with rfl | hy
        · exact ha.elim
        · obtain ⟨y', h1, h2⟩ := ih hy htop
          exact ⟨y', List.mem_cons_of_mem _ h1, h2⟩
  obtain ⟨y', hy', ha'⟩ := hex
  have hst' : s.stack = (above ++ x1 :: mid) ++ x2 :: below := by rw [hst]; simp
  exact C46_mutual_exclusion hwf hidle hx hst' h2 (by simp [hy']) ha' hu

/-! ## C47 -/

/-- **C47** The masking level is a function of what is on the stack: whenever the same situation of nesting is reached again, exactly the same interrupts are admitted. -/
theorem C47_masking_determined {c : Cfg} (hwf : WellFormed c) {idle : Nat} (hidle : c.prio idle = 0) {as as' : List Act} {s s' : St}
    (hx : Exec c (start idle) as s) (hx' : Exec c (start idle) as' s') (hst : s.stack = s'.stack) : s.bp = s'.bp ∧ s.pm = s'.pm := by
  have h1 := inv_exec hwf hx (inv_start hwf hidle)
  have h2 := inv_exec hwf hx' (inv_start hwf hidle)
  rw [h1.bp, h1.pm, h2.bp, h2.pm, hst]; exact ⟨rfl, rfl⟩

theorem Exec.trans {c : Cfg} {s1 s2 s3 : St} {as bs : List Act} (h1 : Exec c s1 as s2) (h2 : Exec c s2 bs s3) : Exec c s1 (as ++ bs) s3 := by
  induction h2 with
  | nil => simpa using h1
  | snoc h hs ih => rw [← List.append_assoc]; exact .snoc ih hs

/-- **C47** (lock) From the call of `lock` in state `s` to its return in `s3` — with nested locks and preemptions in between — BASEPRI and PRIMASK are the same as before. -/
theorem C47_lock_restores {c : Cfg} (hwf : WellFormed c) {idle : Nat} (hidle : c.prio idle = 0) {as0 as : List Act} {s s1 s2 s3 : St} {r : Nat}
    (hx : Exec c (start idle) as0 s) (h1 : Step c s (.lock r) s1) (h2 : Exec c s1 as s2) (h3 : Step c s2 .unlock s3)
    (hret : s3.stack = s.stack) : s3.bp = s.bp ∧ s3.pm = s.pm :=
  C47_masking_determined hwf hidle (.snoc ((Exec.snoc hx h1).trans h2) h3) hx hret

/-- **C47** (preemption) A handler that preempts in state `s` and returns leaves BASEPRI and PRIMASK as it found them. -/
theorem C47_handler_restores {c : Cfg} (hwf : WellFormed c) {idle : Nat} (hidle : c.prio idle = 0) {as0 as : List Act} {s s1 s2 s3 : St} {t : Nat}
    (hx : Exec c (start idle) as0 s) (h1 : Step c s (.irq t) s1) (h2 : Exec c s1 as s2) (h3 : Step c s2 .ret s3)
    (hret : s3.stack = s.stack) : s3.bp = s.bp ∧ s3.pm = s.pm :=
  C47_masking_determined hwf hidle (.snoc ((Exec.snoc hx h1).trans h2) h3) hx hret

/-- **C47** When no lock is held (idle code running), nothing is masked. -/
theorem C47_unlocked_unmasked {c : Cfg} (hwf : WellFormed c) {idle : Nat} (hidle : c.prio idle = 0) {as : List Act} {s : St}
    (hx : Exec c (start idle) as s) (hno : ∀ x ∈ s.stack, ∀ r, ¬ InsideLock r x) (hcs : ∀ m, .cs none m ∉ s.stack) : s.bp = 0 ∧ s.pm = false := by
  have hi := inv_exec hwf hx (inv_start hwf hidle)
  rw [hi.bp, hi.pm]
  have : ∀ l : List Rec, (∀ x ∈ l, ∀ r, ¬ InsideLock r x) → (∀ m, .cs none m ∉ l) → level c l = 0 ∧ masked l = false := by
    intro l
    induction l with
    | nil => intro _ _; exact ⟨rfl, rfl⟩
    | cons x l ih =>
      intro h1 h2
      have ih' := ih (fun x hx => h1 x (List.mem_cons_of_mem _ hx)) (fun m hm => h2 m (List.mem_cons_of_mem _ hm))
      cases x with
      | lk r cur => exact absurd rfl (h1 _ List.mem_cons_self r)
      | cs r m =>
        cases r with
        | none => exact absurd List.mem_cons_self (h2 m)
        | some r => exact absurd rfl (h1 _ List.mem_cons_self r)
      | _ => exact ih'
  rw [(this _ hno hcs).1, (this _ hno hcs).2]
  exact ⟨hw_zero hwf.bits, rfl⟩

/-! ## C52 -/

theorem top_max {c : Cfg} {l : List Rec} {cur t : Nat} {y : Rec} (h : Ok c l) (ht : top l = some cur) (hy : y ∈ l) (ha : ActivationOf t y) : c.prio t ≤ c.prio cur := by
  induction l generalizing cur with
  | nil => cases hy
  | cons x l ih =>
    have frame : ∀ t', ActivationOf t' x → top (x :: l) = some t' → cur = t' → c.prio t ≤ c.prio cur := by
      intro t' hx _ hcur
      subst hcur
      rcases List.mem_cons.mp hy with rfl | hy
      · have : t = cur := by cases y <;> simp only [ActivationOf] at ha hx <;> first | exact ha.elim | (rw [← ha, hx])
        rw [this]; exact Nat.le_refl _
      · have hne : l ≠ [] := by rintro rfl; cases hy
        obtain ⟨-, -, cur', h1, h2⟩ := act_admitted h hx hne
        have := ih (ok_append (l1 := [x]) h) h1 hy
        omega
    cases x with
    | enter t' => simp only [top] at ht; cases ht; exact frame _ rfl rfl rfl
    | body t' i => simp only [top] at ht; cases ht; exact frame _ rfl rfl rfl
    | leave t' => simp only [top] at ht; cases ht; exact frame _ rfl rfl rfl
    | _ =>
      simp only [top] at ht
      rcases List.mem_cons.mp hy with rfl | hy
      · exact ha.elim
      · exact ih (ok_append (l1 := [_]) h) ht hy

/-- **C52** The running task has strictly higher priority than every task it (transitively) preempted. -/
theorem C52_running_is_highest {c : Cfg} (hwf : WellFormed c) {idle : Nat} (hidle : c.prio idle = 0) {as : List Act} {s : St} (hx : Exec c (start idle) as s)
    {above below : List Rec} {x y : Rec} {t t' : Nat} (hst : s.stack = above ++ x :: below) (hx1 : ActivationOf t x) (hy : y ∈ below) (hy1 : ActivationOf t' y) :
    c.prio t' < c.prio t := by
  have hi := inv_exec hwf hx (inv_start hwf hidle)
  have hok := hi.ok
  rw [hst] at hok
  have hok1 := ok_append hok
  have hne : below ≠ [] := by rintro rfl; cases hy
  obtain ⟨-, -, cur, h1, h2⟩ := act_admitted hok1 hx1 hne
  have := top_max (ok_append (l1 := [x]) hok1) h1 hy hy1
  omega

/-- **C52** `lock` never blocks: whatever the state, the running task can lock any resource it uses, and is inside the closure after its own next access. -/
theorem C52_lock_never_blocks {c : Cfg} {s : St} {t r : Nat} (ht : top s.stack = some t) (hc : inCode s.stack = true) (hu : c.uses t r) :
    ∃ s1 s2 x, Step c s (.lock r) s1 ∧ Step c s1 .raise s2 ∧ s2.stack = x :: s.stack ∧ InsideLock r x := by
  by_cases hr : c.ceil r = 2 ^ c.bits
  · exact ⟨_, _, _, .lockCs t r ht hc hu hr, .raiseCs _ _ _ rfl, rfl, rfl⟩
  · exact ⟨_, _, _, .lock t r ht hc hu hr, .raise _ _ _ rfl, rfl, rfl⟩

/-- the part of the stack below the running activation -/
def under : List Rec → List Rec
  | [] => []
  | .enter _ :: rest | .body _ _ :: rest | .leave _ :: rest => rest
  | _ :: rest => under rest

/-- is it an access of the running task itself -/
def own : Act → Bool
  | .irq _ => false
  | _ => true

/-- **C52** (no deadlock) From every reachable state, the running task (other than idle) can run to its end by its own accesses alone — it never has to wait for another task — and then the task it preempted goes on. -/
theorem C52_can_finish {c : Cfg} (hwf : WellFormed c) {idle : Nat} (hidle : c.prio idle = 0) {as : List Act} {s : St} (hx : Exec c (start idle) as s)
    {t : Nat} (ht : top s.stack = some t) (hp : 1 ≤ c.prio t) :
    ∃ as' s', Exec c s as' s' ∧ (∀ a ∈ as', own a = true) ∧ s'.stack = under s.stack := by
  have hi := inv_exec hwf hx (inv_start hwf hidle)
  clear hx
  obtain ⟨st, bp, pm⟩ := s
  simp only at ht ⊢
  have hok := hi.ok
  clear hi
  simp only at hok
  -- a prefix of accesses
  have cons : ∀ {s1 : St} {a : Act} {rest' : List Rec}, Step c ⟨st, bp, pm⟩ a s1 → own a = true →
      (∃ as' s', Exec c s1 as' s' ∧ (∀ a ∈ as', own a = true) ∧ s'.stack = rest') →
      ∃ as' s', Exec c ⟨st, bp, pm⟩ as' s' ∧ (∀ a ∈ as', own a = true) ∧ s'.stack = rest' := by
    intro s1 a rest' h1 h2 ⟨as', s', h3, h4, h5⟩
    refine ⟨[a] ++ as', s', Exec.trans (.snoc (.nil _) h1) h3, ?_, h5⟩
    intro b hb
    rcases List.mem_append.mp hb with hb | hb
    · simp at hb; subst hb; exact h2
    · exact h4 b hb
  have leave : ∀ (t : Nat) (rest : List Rec) (bp pm), ∃ as' s', Exec c ⟨.leave t :: rest, bp, pm⟩ as' s' ∧ (∀ a ∈ as', own a = true) ∧ s'.stack = rest := by
    intro t rest bp pm
    exact ⟨[] ++ [.ret], _, .snoc (.nil _) (.ret t rest rfl), by simp [own], rfl⟩
  have body : ∀ (t : Nat) (i : Option Nat) (rest : List Rec) (bp pm), 1 ≤ c.prio t → ∃ as' s', Exec c ⟨.body t i :: rest, bp, pm⟩ as' s' ∧ (∀ a ∈ as', own a = true) ∧ s'.stack = rest := by
    intro t i rest bp pm h1
    cases i with
    | none => exact ⟨([] ++ [.finish]) ++ [.ret], _, .snoc (.snoc (.nil _) (.finish1 t rest rfl h1)) (.ret t rest rfl), by simp [own], rfl⟩
    | some i => exact ⟨([] ++ [.finish]) ++ [.ret], _, .snoc (.snoc (.nil _) (.finish t i rest rfl)) (.ret t rest rfl), by simp [own], rfl⟩
  induction st generalizing bp pm with
  | nil => simp [top] at ht
  | cons x l ih =>
    cases x with
    | enter t' => simp only [top] at ht; cases ht; exact cons (.readInitial _ _ rfl) rfl (body _ _ _ _ _ hp)
    | body t' i => simp only [top] at ht; cases ht; exact body _ _ _ _ _ hp
    | leave t' => exact leave _ _ _ _
    | lk r cur =>
      refine cons (.unlock r cur l rfl) rfl (ih _ _ ht hok.2.2.2.2 ?_)
      intro s1 a rest' h1 h2 ⟨as', s', h3, h4, h5⟩
      refine ⟨[a] ++ as', s', Exec.trans (.snoc (.nil _) h1) h3, ?_, h5⟩
      intro b hb
      rcases List.mem_append.mp hb with hb | hb
      · simp at hb; subst hb; exact h2
      · exact h4 b hb
    | lk0 r cur => 
      have h' := ih cur pm ht hok.2.2.2.2 (by
        intro s1 a rest' h1 h2 ⟨as', s', h3, h4, h5⟩
        refine ⟨[a] ++ as', s', Exec.trans (.snoc (.nil _) h1) h3, ?_, h5⟩
        intro b hb
        rcases List.mem_append.mp hb with hb | hb
        · simp at hb; subst hb; exact h2
        · exact h4 b hb)
      refine cons (.raise r cur l rfl) rfl ?_
      obtain ⟨as', s', h3, h4, h5⟩ := h'
      refine ⟨[.unlock] ++ as', s', Exec.trans (.snoc (.nil _) (.unlock r cur l rfl)) h3, ?_, h5⟩
      intro b hb
      rcases List.mem_append.mp hb with hb | hb
      · simp at hb; subst hb; rfl
      · exact h4 b hb
    | cs r m =>
      refine cons (.unlockCs r m l rfl) rfl (ih _ _ ht hok.2.2.2 ?_)
      intro s1 a rest' h1 h2 ⟨as', s', h3, h4, h5⟩
      refine ⟨[a] ++ as', s', Exec.trans (.snoc (.nil _) h1) h3, ?_, h5⟩
      intro b hb
      rcases List.mem_append.mp hb with hb | hb
      · simp at hb; subst hb; exact h2
      · exact h4 b hb
    | cs0 r m =>
      have h' := ih bp m ht hok.2.2.2 (by
        intro s1 a rest' h1 h2 ⟨as', s', h3, h4, h5⟩
        refine ⟨[a] ++ as', s', Exec.trans (.snoc (.nil _) h1) h3, ?_, h5⟩
        intro b hb
        rcases List.mem_append.mp hb with hb | hb
        · simp at hb; subst hb; exact h2
        · exact h4 b hb)
      refine cons (.raiseCs r m l rfl) rfl ?_
      obtain ⟨as', s', h3, h4, h5⟩ := h'
      refine ⟨[.unlock] ++ as', s', Exec.trans (.snoc (.nil _) (.unlockCs r m l rfl)) h3, ?_, h5⟩
      intro b hb
      rcases List.mem_append.mp hb with hb | hb
      · simp at hb; subst hb; rfl
      · exact h4 b hb

/-! ## A concrete application

Idle (task 0) and task 1 (priority 1) share resource 10 with task 2 (priority 2), ceiling 2; task 3 (priority 3) does not use it. -/

def demo : Cfg :=
  { bits := 2
    prio := fun t => if t = 1 then 1 else if t = 2 then 2 else if t = 3 then 3 else 0
    uses := fun t r => r = 10 ∧ t ≤ 2
    ceil := fun r => if r = 10 then 2 else 0 }

theorem demo_wf : WellFormed demo := by
  refine ⟨by decide, fun t => ?_, fun t r h => ?_, fun r => ?_⟩
  · simp only [demo]; repeat' split
    all_goals omega
  · obtain ⟨rfl, h2⟩ := h
    show (if t = 1 then 1 else if t = 2 then 2 else if t = 3 then 3 else 0) ≤ (if 10 = 10 then 2 else 0)
    rw [if_pos rfl]
    repeat' split
    all_goals omega
  · show (if r = 10 then 2 else 0) ≤ 4
    split <;> omega

/-- task 1 starts, locks resource 10, and is then preempted by task 3 inside the lock -/
example : ∃ as s, Exec demo (start 0) as s ∧ s.stack = [.enter 3, .lk 10 0, .body 1 none, .body 0 none] ∧ ¬ demo.uses 3 10 ∧
    ¬ admits demo.bits (hw 2 2) false (demo.prio 1) (demo.prio 2) := by
  refine ⟨[] ++ [.irq 1] ++ [.readInitial] ++ [.lock 10] ++ [.raise] ++ [.irq 3],
    ⟨[.enter 3, .lk 10 0, .body 1 none, .body 0 none], 128, false⟩, ?_, rfl, ?_, ?_⟩
  · refine .snoc (.snoc (.snoc (.snoc (.snoc (.nil _) (.irq 1 0 rfl (by decide) (by decide))) (.readInitial 1 _ rfl)) (.lock 1 10 rfl rfl ⟨rfl, by decide⟩ (by decide))) (.raise 10 0 _ rfl)) ?_
    exact .irq 3 1 rfl (by decide) (by decide)
  · rintro ⟨-, h⟩; omega
  · decide

end Verif.Srp
