import Verif.SourceMask.Blocking

/-!
# Blocking by priority on targets without BASEPRI

If the interrupts of all tasks of lower priority are in the register of that of handler `d`, whatever a lock does to the interrupt of `d`, it does to those of lower priority at the same moment or has done to more of them: the hardware admits one of these only if it admits `d`. Locks never keep tasks bound to exceptions from starting.
-/

namespace Verif.SourceMask

/-! ## Vocabulary -/

/-- Handler `d` is bound to an interrupt, which startup has enabled (`e0`); every handler of lower priority is bound to an interrupt in the same register (more urgent ones may be bound to any interrupt or exception); no interrupt has two priorities. Priorities are bounded. -/
structure Plain (c : Cfg) (e0 : Regs) (d : Nat) : Prop where
  self : 1 ≤ c.prio d → ∃ n, c.bind d = some n ∧ enabled e0 n = true
  same : ∀ t, 1 ≤ c.prio t → c.prio t < c.prio d → ∃ m n, c.bind t = some m ∧ c.bind d = some n ∧ m / 32 = n / 32
  uniq : ∀ p q n, (p, n) ∈ c.irqs → (q, n) ∈ c.irqs → p = q
  bounded : ∃ b, ∀ t, c.prio t ≤ b

/-- the record is a critical section that keeps handler `d` from starting: a lock on a resource with a ceiling of at least the priority of `d`, between the write to the register of the interrupt of `d` that disables the interrupts and the one that enables them again; or a section with all interrupts disabled -/
def Blocker (c : Cfg) (d : Nat) : Rec → Prop
  | .cl r i _ => (∃ n, c.bind d = some n ∧ n / 32 < i) ∧ c.prio d ≤ c.ceil r
  | .lk r _ => c.prio d ≤ c.ceil r
  | .st r i _ => (∃ n, c.bind d = some n ∧ i ≤ n / 32) ∧ c.prio d ≤ c.ceil r
  | .cs _ _ => True
  | _ => False

/-- the stack `x :: below` has on top a critical section blocking handler `d`, held by a task of lower priority -/
def BlockedAt (c : Cfg) (d : Nat) (x : Rec) (below : List Rec) : Prop := Blocker c d x ∧ ∃ t, top below = some t ∧ c.prio t < c.prio d

/-- some task of lower priority is inside a critical section that blocks handler `d` -/
def BlockedP (c : Cfg) (d : Nat) (l : List Rec) : Prop := ∃ x below, (x :: below) <:+ l ∧ BlockedAt c d x below

/-- `SameSection x' x`: `x` is `x'`, or the same critical section at a later point: a lock that disables the interrupts of one register after the other, runs its closure, and restores the registers one after the other -/
inductive SameSection : Rec → Rec → Prop
  | same (x) : SameSection x x
  | masking (r i j old) (h : i ≤ j) : SameSection (.cl r i old) (.cl r j old)
  | masked (r i old) : SameSection (.cl r i old) (.lk r old)
  | over (r i j old) : SameSection (.cl r i old) (.st r j old)
  | returned (r j old) : SameSection (.lk r old) (.st r j old)
  | restoring (r i j old) (h : i ≤ j) : SameSection (.st r i old) (.st r j old)

/-! ## Lemmas -/

/-- what keeps `d` from starting keeps handlers of lower priority from starting whose interrupt is in the same register -/
theorem Blocker.mono {c : Cfg} {t d m n : Nat} (hm : c.bind t = some m) (hn : c.bind d = some n) (hr : m / 32 = n / 32) (h : c.prio t ≤ c.prio d) {x : Rec} (hb : Blocker c d x) : Blocker c t x := by
  cases x with
  | cl r i old =>
    obtain ⟨⟨n', h1, h2⟩, h3⟩ := hb
    rw [hn] at h1; cases h1
    exact ⟨⟨m, hm, by omega⟩, Nat.le_trans h h3⟩
  | lk r old => exact Nat.le_trans h hb
  | st r i old =>
    obtain ⟨⟨n', h1, h2⟩, h3⟩ := hb
    rw [hn] at h1; cases h1
    exact ⟨⟨m, hm, by omega⟩, Nat.le_trans h h3⟩
  | cs r m => trivial
  | _ => exact hb.elim

theorem chunk_lt {c : Cfg} {p n : Nat} (h : (p, n) ∈ c.irqs) : n / 32 < nChunks c.irqs := by
  have := chunks_cover (ids := c.irqs.map (·.2)) (b := n) (List.mem_map.2 ⟨_, h, rfl⟩)
  unfold nChunks
  omega

theorem has_iff_ceil {c : Cfg} (hwf : WellFormed c) {e0 : Regs} {d : Nat} (hpl : Plain c e0 d) {p n r : Nat} (hl : (p, n) ∈ c.irqs) (h1 : 1 ≤ p) (hr : ¬ c.ceil r ≥ 4) : (c.mask r).has n = true ↔ p ≤ c.ceil r := by
  unfold Cfg.mask
  rw [(computeMask_spec hwf.masks (by omega)).2]
  constructor
  · rintro ⟨q, h2, h3⟩
    have := hpl.uniq _ _ _ h2 hl
    omega
  · intro h
    exact ⟨p, hl, by omega⟩

theorem masks_iff {c : Cfg} (hwf : WellFormed c) {e0 e1 : Regs} {d : Nat} (hpl : Plain c e1 d) {t n : Nat} (hb : c.bind t = some n) (h1 : 1 ≤ c.prio t) {x : Rec} {below : List Rec} (hok : Ok c e0 (x :: below)) : Masks c n x ↔ Blocker c t x := by
  have hl := hwf.listed t n hb h1
  cases x with
  | cl r i old => simp [Masks, Blocker, has_iff_ceil hwf hpl hl h1 hok.2.1, hb]
  | lk r old => simp only [Masks, Blocker]; rw [has_iff_ceil hwf hpl hl h1 hok.2.1]
  | st r i old => simp [Masks, Blocker, has_iff_ceil hwf hpl hl h1 hok.2.1, hb]
  | cs r m => exact Iff.rfl
  | _ => exact Iff.rfl

/-- An interrupt is admitted only if its priority is higher than that of the running handler and no critical section blocks it. -/
theorem admits_free {c : Cfg} (hwf : WellFormed c) {e0 : Regs} {d : Nat} (hpl : Plain c e0 d) {s : St} (hi : Inv c e0 s) (he : Exact c e0 s) {cur t n : Nat} (hp : 1 ≤ c.prio t) (hb : c.bind t = some n) (ha : admits c s cur t) :
    c.prio cur < c.prio t ∧ ∀ x ∈ s.stack, ¬ Blocker c t x := by
  obtain ⟨h1, h2, h3⟩ := ha
  refine ⟨h2, fun x hx hbl => ?_⟩
  obtain ⟨l1, l2, hsp⟩ := List.append_of_mem hx
  have hm := (masks_iff hwf hpl hb hp (ok_suffix hi.ok ⟨l1, hsp.symm⟩)).2 hbl
  by_cases hcs : ∃ r m, x = .cs r m
  · obtain ⟨r, m, rfl⟩ := hcs
    have := masked_of_mem hx
    rw [← hi.pm, h1] at this; cases this
  · have h4 := h3 n hb
    rw [he.en, hsp] at h4
    have h5 : enabled (exp c e0 (x :: l2)) n = true := exp_mono l1 _ _ _ h4
    rw [exp_disabled hm (fun r m e => hcs ⟨r, m, e⟩)] at h5
    cases h5

/-- An interrupt that startup has enabled is admitted if its priority is higher than that of the running handler and no critical section blocks it. -/
theorem admits_of_free {c : Cfg} (hwf : WellFormed c) {e0 : Regs} {d : Nat} (hpl : Plain c e0 d) {s : St} (hi : Inv c e0 s) (he : Exact c e0 s) {cur t n : Nat} (hp : 1 ≤ c.prio t) (hb : c.bind t = some n) (hen : enabled e0 n = true) (hlt : c.prio cur < c.prio t) (hf : ∀ x ∈ s.stack, ¬ Blocker c t x) :
    admits c s cur t := by
  have no : ∀ x ∈ s.stack, ¬ Masks c n x := by
    intro x hx hm
    obtain ⟨l1, l2, hsp⟩ := List.append_of_mem hx
    exact hf x hx ((masks_iff hwf hpl hb hp (ok_suffix hi.ok ⟨l1, hsp.symm⟩)).1 hm)
  refine ⟨by rw [hi.pm]; exact masked_false_of (fun r m hm => hf _ hm trivial), hlt, fun n' hn' => ?_⟩
  rw [hb] at hn'; cases hn'
  rw [he.en]; exact exp_enabled hen no

theorem blocker_owner {c : Cfg} {e0 : Regs} {x : Rec} {below : List Rec} {d : Nat} (h : Ok c e0 (x :: below)) (hb : Blocker c d x) : ∃ t, top below = some t := by
  have : ∀ l : List Rec, inCode l = true → Ok c e0 l → ∃ t, top l = some t := by
    intro l
    induction l with
    | nil => intro h; simp [inCode] at h
    | cons y l ih =>
      intro h ho
      cases y with
      | body t => exact ⟨t, rfl⟩
      | lk r old => exact ih ho.2.2.2.1 ho.2.2.2.2
      | cs r m => exact ih ho.2.2.1 ho.2.2.2
      | _ => simp [inCode] at h
  cases x with
  | lk r cur => exact this below h.2.2.2.1 h.2.2.2.2
  | cl r i cur => exact this below h.2.2.2.1 h.2.2.2.2
  | st r i cur => exact this below h.2.2.2.1 h.2.2.2.2
  | cs r m => exact this below h.2.2.1 h.2.2.2
  | _ => exact hb.elim

/-- a lower-priority task runs and nobody blocks: the hardware admits the interrupt -/
theorem admitted_of_freeP {c : Cfg} (hwf : WellFormed c) {e0 : Regs} {d : Nat} (hpl : Plain c e0 d) {s : St} (hi : Inv c e0 s) (he : Exact c e0 s) {cur : Nat} (hp : 1 ≤ c.prio d) (hc : top s.stack = some cur) (hlt : c.prio cur < c.prio d)
    (hb : ¬ BlockedP c d s.stack) : admits c s cur d := by
  have no : ∀ x ∈ s.stack, ¬ Blocker c d x := by
    intro x hx hbl
    obtain ⟨l1, l2, hl⟩ := List.append_of_mem hx
    have hsuf : (x :: l2) <:+ s.stack := ⟨l1, hl.symm⟩
    obtain ⟨t', ht'⟩ := blocker_owner (ok_suffix hi.ok hsuf) hbl
    have := top_suffix hi.ok ((List.suffix_cons x l2).trans hsuf) ht' hc
    exact hb ⟨x, l2, hsuf, hbl, t', ht', by omega⟩
  obtain ⟨n, h1, h2⟩ := hpl.self hp
  exact admits_of_free hwf hpl hi he hp h1 h2 hlt no

/-- a critical section that blocks handler `d` now was entered before the stack was `l2` -/
def OldBlock (c : Cfg) (d : Nat) (l2 l : List Rec) : Prop :=
  BlockedP c d l → ∃ x' x below, BlockedAt c d x' below ∧ BlockedAt c d x below ∧ SameSection x' x ∧ (x' :: below) <:+ l2 ∧ (x :: below) <:+ l

theorem oldBlock_refl (c : Cfg) (d : Nat) (l : List Rec) : OldBlock c d l l := fun ⟨x, b, h1, h2⟩ => ⟨x, x, b, h2, h2, .same _, h1, h1⟩

/-- while the interrupt of `d` is not taken although admitted only because something at least as urgent is: no critical section that blocks it is entered -/
theorem oldBlock_step {c : Cfg} (hwf : WellFormed c) {e0 : Regs} {d : Nat} (hpl : Plain c e0 d) {s s' : St} (hi : Inv c e0 s) (he : Exact c e0 s) {a : Act} (hp : 1 ≤ c.prio d) (hs : Step c s a s')
    (hu : ∀ cur, top s.stack = some cur → admits c s cur d → ∃ t', a = .irq t') {l2 : List Rec} (ho : OldBlock c d l2 s.stack) : OldBlock c d l2 s'.stack := by
  obtain ⟨n, hn, -⟩ := hpl.self hp
  have hlt := chunk_lt (hwf.listed d n hn hp)
  rintro ⟨x0, b0, hsuf, hb0⟩
  -- the blocking section was there before
  have old : (x0 :: b0) <:+ s.stack → BlockedP c d s.stack := fun h => ⟨x0, b0, h, hb0⟩
  -- something is pushed that does not block
  have push : ∀ {y : Rec}, s'.stack = y :: s.stack → ¬ Blocker c d y → ∃ x' x below, BlockedAt c d x' below ∧ BlockedAt c d x below ∧ SameSection x' x ∧ (x' :: below) <:+ l2 ∧ (x :: below) <:+ s'.stack := by
    intro y hy hny
    rw [hy] at hsuf
    have : (x0 :: b0) <:+ s.stack := by
      rcases List.suffix_cons_iff.1 hsuf with h | h
      · cases h; exact absurd hb0.1 hny
      · exact h
    obtain ⟨x', x, b, k1, k2, k3, k4, k5⟩ := ho (old this)
    exact ⟨x', x, b, k1, k2, k3, k4, by rw [hy]; exact k5.trans (List.suffix_cons _ _)⟩
  -- the top record is replaced by one that does not block, or removed
  have leave : ∀ {z : Rec} {m : List Rec}, s.stack = z :: m → (x0 :: b0) <:+ m → m <:+ s'.stack → ∃ x' x below, BlockedAt c d x' below ∧ BlockedAt c d x below ∧ SameSection x' x ∧ (x' :: below) <:+ l2 ∧ (x :: below) <:+ s'.stack := by
    intro z m hz hm hm'
    obtain ⟨x', x, b, k1, k2, k3, k4, k5⟩ := ho (old (by rw [hz]; exact hm.trans (List.suffix_cons _ _)))
    rw [hz] at k5
    rcases List.suffix_cons_iff.1 k5 with h | h
    · cases h
      exact ⟨x0, x0, b0, hb0, hb0, .same _, hm.trans ((List.suffix_cons _ _).trans k4), hm.trans hm'⟩
    · exact ⟨x', x, b, k1, k2, k3, k4, h.trans hm'⟩
  have repl : ∀ {y z : Rec} {m : List Rec}, s.stack = z :: m → s'.stack = y :: m → ¬ Blocker c d y → ∃ x' x below, BlockedAt c d x' below ∧ BlockedAt c d x below ∧ SameSection x' x ∧ (x' :: below) <:+ l2 ∧ (x :: below) <:+ s'.stack := by
    intro y z m hz hy hny
    have hm : (x0 :: b0) <:+ m := by
      rw [hy] at hsuf
      rcases List.suffix_cons_iff.1 hsuf with h | h
      · cases h; exact absurd hb0.1 hny
      · exact h
    exact leave hz hm (by rw [hy]; exact List.suffix_cons _ _)
  -- the top record goes on within the same section
  have goes : ∀ {y z : Rec} {m : List Rec}, s.stack = z :: m → s'.stack = y :: m → (Blocker c d y → Blocker c d z) → (Blocker c d z → Blocker c d y) → (∀ x', SameSection x' z → SameSection x' y) →
      ∃ x' x below, BlockedAt c d x' below ∧ BlockedAt c d x below ∧ SameSection x' x ∧ (x' :: below) <:+ l2 ∧ (x :: below) <:+ s'.stack := by
    intro y z m hz hy hyz hzy hsec
    have : BlockedP c d s.stack := by
      rw [hy] at hsuf
      rcases List.suffix_cons_iff.1 hsuf with h | h
      · cases h; exact ⟨z, _, by rw [hz]; exact List.suffix_rfl, hyz hb0.1, hb0.2⟩
      · exact old (by rw [hz]; exact h.trans (List.suffix_cons _ _))
    obtain ⟨x', x, b, k1, k2, k3, k4, k5⟩ := ho this
    rw [hz] at k5
    rcases List.suffix_cons_iff.1 k5 with h | h
    · cases h
      exact ⟨x', y, _, k1, ⟨hzy k2.1, k2.2⟩, hsec _ k3, k4, by rw [hy]; exact List.suffix_rfl⟩
    · exact ⟨x', x, b, k1, k2, k3, k4, by rw [hy]; exact h.trans (List.suffix_cons _ _)⟩
  -- a section is entered
  have enter : ∀ {y z : Rec} {m : List Rec}, s.stack = z :: m → s'.stack = y :: m → top s.stack = top m → ¬ Blocker c d z → (∀ t', a ≠ .irq t') →
      ∃ x' x below, BlockedAt c d x' below ∧ BlockedAt c d x below ∧ SameSection x' x ∧ (x' :: below) <:+ l2 ∧ (x :: below) <:+ s'.stack := by
    intro y z m hz hy htop hnz hna
    have hbl : BlockedP c d s.stack := by
      rw [hy] at hsuf
      rcases List.suffix_cons_iff.1 hsuf with h | h
      · cases h
        obtain ⟨t1, ht1, hlt⟩ := hb0.2
        apply Classical.byContradiction
        intro hn
        obtain ⟨t', ht'⟩ := hu t1 (by rw [htop]; exact ht1) (admitted_of_freeP hwf hpl hi he hp (by rw [htop]; exact ht1) hlt hn)
        exact hna t' ht'
      · exact old (by rw [hz]; exact h.trans (List.suffix_cons _ _))
    obtain ⟨x', x, b, k1, k2, k3, k4, k5⟩ := ho hbl
    rw [hz] at k5
    rcases List.suffix_cons_iff.1 k5 with h | h
    · cases h; exact absurd k2.1 hnz
    · exact ⟨x', x, b, k1, k2, k3, k4, by rw [hy]; exact h.trans (List.suffix_cons _ _)⟩
  cases hs with
  | irq t' cur htop ha => exact push rfl id
  | lockCs t' r htop hc hu' hr => exact push rfl id
  | lock t' r htop hc hu' hr => exact push rfl id
  | userCs hc => exact push rfl id
  | rd r i o rest h hi' => exact repl h rfl id
  | rdEnd r i o rest h hi' => exact repl h rfl (fun hb => by have := hb.1; omega)
  | cl r i o rest h hi' =>
    rcases Nat.lt_trichotomy i (n / 32) with hk | hk | hk
    · exact repl h rfl (by rintro ⟨⟨n', h1, h2⟩, -⟩; rw [hn] at h1; cases h1; omega)
    · exact enter h rfl (by rw [h]; rfl) (by rintro ⟨⟨n', h1, h2⟩, -⟩; rw [hn] at h1; cases h1; omega) (by simp)
    · refine goes h rfl (fun hb => ⟨⟨n, hn, by omega⟩, hb.2⟩) (fun hb => ⟨⟨n, hn, by omega⟩, hb.2⟩) ?_
      rintro x' hx
      cases hx with
      | same => exact .masking _ _ _ _ (by omega)
      | masking r j k old hj => exact .masking _ _ _ _ (by omega)
  | clEnd r i o rest h hi' =>
    refine goes h rfl (fun hb => ⟨⟨n, hn, by omega⟩, hb⟩) (fun hb => hb.2) ?_
    rintro x' hx
    cases hx with
    | same => exact .masked _ _ _
    | masking r j k old hj => exact .masked _ _ _
  | unlock r o rest h =>
    refine goes h rfl (fun hb => hb.2) (fun hb => ⟨⟨n, hn, by omega⟩, hb⟩) ?_
    rintro x' hx
    cases hx with
    | same => exact .returned _ _ _
    | masked r i old => exact .over _ _ _ _
  | st r i o rest h hi' =>
    rcases Nat.lt_or_ge i (n / 32) with hk | hk
    · refine goes h rfl (fun hb => ⟨⟨n, hn, by omega⟩, hb.2⟩) (fun hb => ⟨⟨n, hn, by omega⟩, hb.2⟩) ?_
      rintro x' hx
      cases hx with
      | same => exact .restoring _ _ _ _ (by omega)
      | over r j k old => exact .over _ _ _ _
      | returned r k old => exact .returned _ _ _
      | restoring r j k old hj => exact .restoring _ _ _ _ (by omega)
    · exact repl h rfl (by rintro ⟨⟨n', h1, h2⟩, -⟩; rw [hn] at h1; cases h1; omega)
  | stEnd r i o rest h hi' => exact leave h hsuf List.suffix_rfl
  | raiseCs r m rest h => exact enter h rfl (by rw [h]; rfl) id (by simp)
  | unlockCs r m rest h => exact leave h hsuf List.suffix_rfl
  | nvicMask k hc => exact ho (old hsuf)
  | ret t' rest h hne' => exact leave h hsuf List.suffix_rfl

end Verif.SourceMask
