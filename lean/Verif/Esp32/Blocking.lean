import Verif.Esp32.Props

/-!
# Blocking on ESP32-C3/C6

Whether an interrupt can start depends on its priority, the threshold and the interrupt enable bit only. What keeps it from starting is a critical section of the running task, or that the running task is as urgent.
-/

namespace Verif.Esp32

/-! ## Vocabulary -/

/-- the hardware starts a pending interrupt of priority `p` -/
def admits (s : St) (p : Nat) : Prop := s.off = false ∧ s.thr ≤ p

/-- the record is a critical section that keeps interrupts of priority `p` from starting: a lock on a resource with a ceiling of at least `p`, or a section with all interrupts disabled -/
def Blocker (c : Cfg) (p : Nat) : Rec → Prop
  | .lk r _ => p ≤ c.ceil r
  | .cs _ _ => True
  | _ => False

/-- the stack `x :: below` has on top a critical section blocking priority `p`, held by a task of lower priority -/
def BlockedAt (c : Cfg) (p : Nat) (x : Rec) (below : List Rec) : Prop := Blocker c p x ∧ ∃ t, top below = some t ∧ c.prio t < p

/-- some task of lower priority is inside a critical section that blocks priority `p` -/
def Blocked (c : Cfg) (p : Nat) (l : List Rec) : Prop := ∃ x below, (x :: below) <:+ l ∧ BlockedAt c p x below

/-! ## Lemmas -/

theorem admits_mono {s : St} {p q : Nat} (h : p ≤ q) (ha : admits s p) : admits s q := ⟨ha.1, Nat.le_trans ha.2 h⟩

theorem top_of_inCode {l : List Rec} {c : Cfg} {t0 : Nat} (hok : Ok c t0 l) (h : inCode l = true) : ∃ t, top l = some t := by
  induction l with
  | nil => simp [inCode] at h
  | cons y l ih =>
    cases y with
    | body t prev i => exact ⟨t, rfl⟩
    | lk r cur => exact ih hok.2.2.2.2 hok.2.2.2.1
    | cs r m => exact ih hok.2.2.2 hok.2.2.1
    | _ => simp [inCode] at h

/-- interrupts are disabled only by a critical section of the running task -/
theorem masked_own {c : Cfg} {t0 : Nat} {l : List Rec} (hok : Ok c t0 l) (h : masked l = true) : ∃ r m below, (.cs r m :: below) <:+ l ∧ top below = top l := by
  induction l with
  | nil => cases h
  | cons x l ih =>
    cases x with
    | enter t prev => simp only [masked] at h; rw [hok.2.2.1] at h; cases h
    | leave t prev => simp only [masked] at h; rw [hok.2.2.1] at h; cases h
    | body t prev i =>
      simp only [masked] at h
      rcases hok with ⟨rfl, -⟩ | hok
      · cases h
      · rw [hok.2.2.1] at h; cases h
    | cs r m => exact ⟨r, m, l, List.suffix_rfl, rfl⟩
    | lk r cur =>
      obtain ⟨r', m, b, h1, h2⟩ := ih hok.2.2.2.2 h
      exact ⟨r', m, b, h1.trans (List.suffix_cons _ _), h2⟩
    | lk0 r cur =>
      obtain ⟨r', m, b, h1, h2⟩ := ih hok.2.2.2.2 h
      exact ⟨r', m, b, h1.trans (List.suffix_cons _ _), h2⟩
    | cs0 r m0 =>
      obtain ⟨r', m, b, h1, h2⟩ := ih hok.2.2.2 h
      exact ⟨r', m, b, h1.trans (List.suffix_cons _ _), h2⟩

/-- the threshold is that of the running task or of one of its locks -/
theorem level_own {c : Cfg} {t0 : Nat} (ht0 : t0 ≤ 1) {l : List Rec} (hok : Ok c t0 l) {t : Nat} (ht : top l = some t) :
    level c t0 l ≤ c.prio t + 1 ∨ ∃ r cur below, (.lk r cur :: below) <:+ l ∧ top below = some t ∧ level c t0 l = c.ceil r + 1 := by
  induction l with
  | nil => cases ht
  | cons x l ih =>
    cases x with
    | enter t' prev => cases ht; left; simp only [level]; omega
    | leave t' prev => cases ht; left; simp only [level]; split <;> omega
    | body t' prev i =>
      cases ht; left
      rcases hok with ⟨rfl, rfl, h⟩ | hok
      · simp only [level]; omega
      · rw [level_body hok.2.2.2.2.1]; omega
    | lk r cur => exact .inr ⟨r, cur, l, List.suffix_rfl, ht, by simp only [level]⟩
    | lk0 r cur =>
      rcases ih hok.2.2.2.2 ht with h | ⟨r', cur', b, h1, h2, h3⟩
      · exact .inl h
      · exact .inr ⟨r', cur', b, h1.trans (List.suffix_cons _ _), h2, h3⟩
    | cs0 r m =>
      rcases ih hok.2.2.2 ht with h | ⟨r', cur', b, h1, h2, h3⟩
      · exact .inl h
      · exact .inr ⟨r', cur', b, h1.trans (List.suffix_cons _ _), h2, h3⟩
    | cs r m =>
      rcases ih hok.2.2.2 ht with h | ⟨r', cur', b, h1, h2, h3⟩
      · exact .inl h
      · exact .inr ⟨r', cur', b, h1.trans (List.suffix_cons _ _), h2, h3⟩

/-- a lower-priority task runs and nobody blocks: the hardware admits the interrupt -/
theorem admitted_of_free {c : Cfg} {t0 : Nat} (ht0 : t0 ≤ 1) {s : St} (hi : Inv c t0 s) {p cur : Nat} (hc : top s.stack = some cur) (hlt : c.prio cur < p) (hb : ¬ Blocked c p s.stack) : admits s p := by
  refine ⟨?_, ?_⟩
  · cases ho : s.off
    · rfl
    · rw [hi.off] at ho
      obtain ⟨r, m, b, h1, h2⟩ := masked_own hi.ok ho
      exact absurd ⟨_, _, h1, trivial, cur, by rw [h2]; exact hc, hlt⟩ hb
  · rw [hi.thr]
    rcases level_own ht0 hi.ok hc with h | ⟨r, cur', b, h1, h2, h3⟩
    · omega
    · apply Nat.le_of_not_lt
      intro hgt
      exact hb ⟨_, _, h1, (by show p ≤ c.ceil r; omega), cur, h2, hlt⟩

/-- a critical section that blocks priority `q` now was entered before the stack was `l2` -/
def OldBlock (c : Cfg) (q : Nat) (l2 l : List Rec) : Prop :=
  Blocked c q l → ∃ x below, BlockedAt c q x below ∧ (x :: below) <:+ l2 ∧ (x :: below) <:+ l

theorem oldBlock_refl (c : Cfg) (q : Nat) (l : List Rec) : OldBlock c q l l := fun ⟨x, b, h1, h2⟩ => ⟨x, b, h2, h1, h1⟩

/-- while interrupts of priority `q` are taken whenever admitted: no critical section that blocks them is entered -/
theorem oldBlock_step {c : Cfg} {t0 : Nat} (ht0 : t0 ≤ 1) {s s' : St} (hi : Inv c t0 s) {a : Act} {q : Nat} (hs : Step c s a s') (hu : admits s q → ∃ t', a = .irq t') {l2 : List Rec} (ho : OldBlock c q l2 s.stack) : OldBlock c q l2 s'.stack := by
  rintro ⟨x0, b0, hsuf, hb0⟩
  have old : (x0 :: b0) <:+ s.stack → Blocked c q s.stack := fun h => ⟨x0, b0, h, hb0⟩
  -- something is pushed that does not block
  have push : ∀ {y : Rec}, s'.stack = y :: s.stack → ¬ Blocker c q y → ∃ x below, BlockedAt c q x below ∧ (x :: below) <:+ l2 ∧ (x :: below) <:+ s'.stack := by
    intro y hy hny
    rw [hy] at hsuf
    have : (x0 :: b0) <:+ s.stack := by
      rcases List.suffix_cons_iff.1 hsuf with h | h
      · cases h; exact absurd hb0.1 hny
      · exact h
    obtain ⟨x, b, k2, k4, k5⟩ := ho (old this)
    exact ⟨x, b, k2, k4, by rw [hy]; exact k5.trans (List.suffix_cons _ _)⟩
  -- the top record is replaced by one that does not block, or removed
  have leave : ∀ {z : Rec} {m : List Rec}, s.stack = z :: m → (x0 :: b0) <:+ m → m <:+ s'.stack → ∃ x below, BlockedAt c q x below ∧ (x :: below) <:+ l2 ∧ (x :: below) <:+ s'.stack := by
    intro z m hz hm hm'
    obtain ⟨x, b, k2, k4, k5⟩ := ho (old (by rw [hz]; exact hm.trans (List.suffix_cons _ _)))
    rw [hz] at k5
    rcases List.suffix_cons_iff.1 k5 with h | h
    · cases h
      exact ⟨x0, b0, hb0, hm.trans ((List.suffix_cons _ _).trans k4), hm.trans hm'⟩
    · exact ⟨x, b, k2, k4, h.trans hm'⟩
  have repl : ∀ {y z : Rec} {m : List Rec}, s.stack = z :: m → s'.stack = y :: m → ¬ Blocker c q y → ∃ x below, BlockedAt c q x below ∧ (x :: below) <:+ l2 ∧ (x :: below) <:+ s'.stack := by
    intro y z m hz hy hny
    have hm : (x0 :: b0) <:+ m := by
      rw [hy] at hsuf
      rcases List.suffix_cons_iff.1 hsuf with h | h
      · cases h; exact absurd hb0.1 hny
      · exact h
    exact leave hz hm (by rw [hy]; exact List.suffix_cons _ _)
  -- a section is entered
  have enter : ∀ {y z : Rec} {m : List Rec}, s.stack = z :: m → s'.stack = y :: m → top s.stack = top m → ¬ Blocker c q z → (∀ t', a ≠ .irq t') →
      ∃ x below, BlockedAt c q x below ∧ (x :: below) <:+ l2 ∧ (x :: below) <:+ s'.stack := by
    intro y z m hz hy htop hnz hna
    have hbl : Blocked c q s.stack := by
      rw [hy] at hsuf
      rcases List.suffix_cons_iff.1 hsuf with h | h
      · cases h
        obtain ⟨t1, ht1, hlt⟩ := hb0.2
        apply Classical.byContradiction
        intro hn
        obtain ⟨t', ht'⟩ := hu (admitted_of_free ht0 hi (by rw [htop]; exact ht1) hlt hn)
        exact hna t' ht'
      · exact old (by rw [hz]; exact h.trans (List.suffix_cons _ _))
    obtain ⟨x, b, k2, k4, k5⟩ := ho hbl
    rw [hz] at k5
    rcases List.suffix_cons_iff.1 k5 with h | h
    · cases h; exact absurd k2.1 hnz
    · exact ⟨x, b, k2, k4, by rw [hy]; exact h.trans (List.suffix_cons _ _)⟩
  cases hs with
  | irq t hp ho' ha => exact push rfl id
  | lockCs t' r htop hc hu' hr => exact push rfl id
  | lock t' r htop hc hu' hr => exact push rfl id
  | userCs hc => exact push rfl id
  | readInitial t prev rest h => exact repl h rfl id
  | raise r cur rest h => exact enter h rfl (by rw [h]; rfl) id (by simp)
  | raiseCs r m rest h => exact enter h rfl (by rw [h]; rfl) id (by simp)
  | unlock r cur rest h => exact leave h hsuf List.suffix_rfl
  | unlockCs r m rest h => exact leave h hsuf List.suffix_rfl
  | finish1 t prev rest h hp => exact repl h rfl id
  | finish t prev i rest h => exact repl h rfl id
  | ret t prev rest h => exact leave h hsuf List.suffix_rfl

end Verif.Esp32
