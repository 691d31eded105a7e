import Verif.Srp.Spec

namespace Verif.Srp

theorem pow_le_128 {b : Nat} (hb : b ≤ 7) : 2 ^ b ≤ 128 := Nat.pow_le_pow_right (n := 2) (by omega) hb

theorem pow_split {b : Nat} (hb : b ≤ 8) : 2 ^ b * 2 ^ (8 - b) = 256 := by
  rw [← Nat.pow_add, Nat.add_sub_cancel' hb]

/-- closed form of the encoding -/
theorem hw_eq {bits p : Nat} (hb : bits ≤ 7) (hp : p ≤ 2 ^ bits) : hw bits p = ((2 ^ bits - p) * 2 ^ (8 - bits)) % 256 := by
  have h128 := pow_le_128 hb
  have h1 : (BitVec.ofNat 8 bits).toNat = bits := by rw [BitVec.toNat_ofNat]; omega
  have h2 : (8#8 - BitVec.ofNat 8 bits).toNat = 8 - bits := by
    rw [BitVec.toNat_sub, h1]
    have : (8#8).toNat = 8 := rfl
    omega
  have h3 : (1#8 <<< bits - BitVec.ofNat 8 p).toNat = 2 ^ bits - p := by
    rw [BitVec.toNat_sub, BitVec.toNat_shiftLeft, BitVec.toNat_ofNat, BitVec.toNat_ofNat, Nat.shiftLeft_eq]
    have : (1 % 2 ^ 8 * 2 ^ bits) = 2 ^ bits := by simp
    rw [this]
    omega
  unfold hw logical2hw
  rw [h1, h2, BitVec.toNat_shiftLeft, h3, Nat.shiftLeft_eq]

theorem hw_pos {bits p : Nat} (hb : bits ≤ 7) (h1 : 1 ≤ p) (hp : p ≤ 2 ^ bits) : hw bits p = (2 ^ bits - p) * 2 ^ (8 - bits) := by
  rw [hw_eq hb hp, Nat.mod_eq_of_lt]
  have := pow_split (b := bits) (by omega)
  calc (2 ^ bits - p) * 2 ^ (8 - bits) < 2 ^ bits * 2 ^ (8 - bits) :=
        Nat.mul_lt_mul_of_pos_right (by have := Nat.two_pow_pos bits; omega) (Nat.two_pow_pos _)
    _ = 256 := this

theorem hw_zero {bits : Nat} (hb : bits ≤ 7) : hw bits 0 = 0 := by
  rw [hw_eq hb (Nat.zero_le _), Nat.sub_zero, pow_split (by omega)]

theorem hw_lt {bits p q : Nat} (hb : bits ≤ 7) (h1 : 1 ≤ p) (hp : p ≤ 2 ^ bits) (h2 : 1 ≤ q) (hq : q ≤ 2 ^ bits) :
    hw bits p < hw bits q ↔ q < p := by
  rw [hw_pos hb h1 hp, hw_pos hb h2 hq, Nat.mul_lt_mul_right (Nat.two_pow_pos _)]
  omega

theorem hw_eq_zero {bits p : Nat} (hb : bits ≤ 7) (h1 : 1 ≤ p) (hp : p ≤ 2 ^ bits) : hw bits p = 0 ↔ p = 2 ^ bits := by
  rw [hw_pos hb h1 hp]
  have := Nat.two_pow_pos (8 - bits)
  simp [Nat.mul_eq_zero]
  omega

/-- hardware BASEPRI value for a masking level below the maximum -/
theorem basepriMax_hw {bits m k : Nat} (hb : bits ≤ 7) (hm : m < 2 ^ bits) (hk : k < 2 ^ bits) :
    basepriMax (hw bits m) (hw bits k) = hw bits (max m k) := by
  unfold basepriMax
  rcases Nat.eq_zero_or_pos m with rfl | hm0
  · rw [hw_zero hb, Nat.zero_max]; simp; intro h; exact h.symm
  · rcases Nat.eq_zero_or_pos k with rfl | hk0
    · rw [hw_zero hb]; simp
    · have e1 := hw_eq_zero hb hm0 (by omega)
      have e2 := hw_eq_zero hb hk0 (by omega)
      have e3 := hw_lt hb hk0 (by omega) hm0 (by omega)
      have n1 : hw bits m ≠ 0 := fun h => by have := e1.mp h; omega
      have n2 : hw bits k ≠ 0 := fun h => by have := e2.mp h; omega
      simp only [n1, n2, ne_eq, not_false_eq_true, true_and, false_or, e3]
      split
      · rw [Nat.max_eq_right (by omega)]
      · rw [Nat.max_eq_left (by omega)]

/-- what the hardware admits at masking level `m` -/
theorem admits_iff {bits m cur p : Nat} {pm : Bool} (hb : bits ≤ 7) (hm : m < 2 ^ bits) (h1 : 1 ≤ p) (hp : p ≤ 2 ^ bits) (hc : cur ≤ 2 ^ bits) :
    admits bits (hw bits m) pm cur p ↔ pm = false ∧ cur < p ∧ m < p := by
  unfold admits
  have a1 : (cur = 0 ∨ hw bits p < hw bits cur) ↔ cur < p := by
    rcases Nat.eq_zero_or_pos cur with rfl | h
    · simp; omega
    · rw [hw_lt hb h1 hp h hc]; omega
  have a2 : (hw bits m = 0 ∨ hw bits p < hw bits m) ↔ m < p := by
    rcases Nat.eq_zero_or_pos m with rfl | h
    · simp [hw_zero hb]; omega
    · rw [hw_lt hb h1 hp h (by omega), hw_eq_zero hb h (by omega)]; omega
  rw [a1, a2]

/-- masking level implied by the stack -/
def level (c : Cfg) : List Rec → Nat
  | [] => 0
  | .lk r _ :: rest => max (level c rest) (c.ceil r)
  | _ :: rest => level c rest

/-- PRIMASK implied by the stack -/
def masked : List Rec → Bool
  | [] => false
  | .cs _ _ :: _ => true
  | _ :: rest => masked rest

/-- consistency of the stack: the values remembered are those implied by the records below, and every activation was admitted by what is below it -/
def Ok (c : Cfg) : List Rec → Prop
  | [] => True
  | .enter t :: rest | .leave t :: rest =>
    (masked rest = false ∧ level c rest < c.prio t ∧ ∃ cur, top rest = some cur ∧ c.prio cur < c.prio t) ∧ Ok c rest
  | .body t i :: rest =>
    ((rest = [] ∧ i = none ∧ c.prio t = 0) ∨
     ((i = none ∧ level c rest = 0 ∨ i = some (hw c.bits (level c rest))) ∧
      masked rest = false ∧ level c rest < c.prio t ∧ ∃ cur, top rest = some cur ∧ c.prio cur < c.prio t)) ∧ Ok c rest
  | .lk0 r cur :: rest | .lk r cur :: rest => cur = hw c.bits (level c rest) ∧ c.ceil r < 2 ^ c.bits ∧ (∃ t, top rest = some t ∧ c.uses t r) ∧ inCode rest = true ∧ Ok c rest
  | .cs0 r m :: rest | .cs r m :: rest => m = masked rest ∧ (∀ r', r = some r' → c.ceil r' = 2 ^ c.bits ∧ ∃ t, top rest = some t ∧ c.uses t r') ∧ inCode rest = true ∧ Ok c rest

structure Inv (c : Cfg) (s : St) : Prop where
  ok : Ok c s.stack
  bp : s.bp = hw c.bits (level c s.stack)
  pm : s.pm = masked s.stack
  ne : s.stack ≠ []

theorem level_lt {c : Cfg} {l : List Rec} (h : Ok c l) : level c l < 2 ^ c.bits := by
  have := Nat.two_pow_pos c.bits
  induction l with
  | nil => simp only [level]; omega
  | cons x l ih =>
    cases x with
    | lk r cur =>
      obtain ⟨-, h2, -, -, h3⟩ := h
      have := ih h3
      simp only [level]; omega
    | enter t => exact ih h.2
    | body t i => exact ih h.2
    | leave t => exact ih h.2
    | lk0 r cur => exact ih h.2.2.2.2
    | cs0 r m => exact ih h.2.2.2
    | cs r m => exact ih h.2.2.2

theorem inv_start {c : Cfg} (hw' : WellFormed c) {idle : Nat} (hi : c.prio idle = 0) : Inv c (start idle) := by
  refine ⟨⟨.inl ⟨rfl, rfl, hi⟩, trivial⟩, ?_, rfl, by simp [start]⟩
  show 0 = _
  exact (hw_zero hw'.bits).symm

theorem inv_step {c : Cfg} (hwf : WellFormed c) {s s' : St} {a : Act} (hi : Inv c s) (hs : Step c s a s') : Inv c s' := by
  obtain ⟨hok, hbp, hpm, hne⟩ := hi
  have hlt := level_lt hok
  cases hs with
  | irq t cur htop hp ha =>
    rw [hbp, admits_iff hwf.bits hlt hp (hwf.prio t) (hwf.prio cur)] at ha
    refine ⟨⟨⟨?_, ha.2.2, cur, htop, ha.2.1⟩, hok⟩, hbp, hpm, by simp⟩
    rw [← hpm]; exact ha.1
  | readInitial t rest h =>
    obtain ⟨st, bp, pm⟩ := s
    simp only at h hok hbp hpm; subst h
    obtain ⟨⟨h1, h2, h3⟩, h4⟩ := hok
    refine ⟨⟨.inr ⟨?_, h1, h2, h3⟩, h4⟩, hbp, hpm, by simp⟩
    simp only [level] at hbp
    split
    · left; exact ⟨rfl, by omega⟩
    · right; rw [hbp]
  | lockCs t r htop hc hu hr => exact ⟨⟨hpm, fun r' h => by cases h; exact ⟨hr, t, htop, hu⟩, hc, hok⟩, hbp, hpm, by simp⟩
  | lock t r htop hc hu hr => exact ⟨⟨hbp, by have := hwf.ceilMax r; omega, ⟨t, htop, hu⟩, hc, hok⟩, hbp, hpm, by simp⟩
  | userCs hc => exact ⟨⟨hpm, fun r' h => (by cases h), hc, hok⟩, hbp, hpm, by simp⟩
  | raise r cur rest h =>
    obtain ⟨st, bp, pm⟩ := s
    simp only at h hok hbp hpm; subst h
    refine ⟨hok, ?_, hpm, by simp⟩
    simp only [level] at hbp ⊢
    rw [hbp, basepriMax_hw hwf.bits (level_lt hok.2.2.2.2) hok.2.1]
  | raiseCs r m rest h =>
    obtain ⟨st, bp, pm⟩ := s
    simp only at h hok hbp hpm; subst h
    exact ⟨hok, hbp, rfl, by simp⟩
  | unlock r cur rest h =>
    obtain ⟨st, bp, pm⟩ := s
    simp only at h hok hbp hpm; subst h
    refine ⟨hok.2.2.2.2, hok.1, hpm, ?_⟩
    rintro rfl; have := hok.2.2.2.1; simp [inCode] at this
  | unlockCs r m rest h =>
    obtain ⟨st, bp, pm⟩ := s
    simp only at h hok hbp hpm; subst h
    refine ⟨hok.2.2.2, hbp, hok.1, ?_⟩
    rintro rfl; have := hok.2.2.1; simp [inCode] at this
  | finish1 t rest h hp =>
    obtain ⟨st, bp, pm⟩ := s
    simp only at h hok hbp hpm; subst h
    obtain ⟨(h1 | ⟨h1, h2⟩), h3⟩ := hok
    · omega
    · refine ⟨⟨h2, h3⟩, ?_, hpm, by simp⟩
      rcases h1 with h1 | h1
      · simp only [level]; rw [h1.2]; exact (hw_zero hwf.bits).symm
      · exact absurd h1 (by simp)
  | finish t i rest h =>
    obtain ⟨st, bp, pm⟩ := s
    simp only at h hok hbp hpm; subst h
    obtain ⟨(h1 | ⟨h1, h2⟩), h3⟩ := hok
    · exact absurd h1.2.1 (by simp)
    · refine ⟨⟨h2, h3⟩, ?_, hpm, by simp⟩
      rcases h1 with h1 | h1
      · exact absurd h1.1 (by simp)
      · simp only [level]; cases h1; rfl
  | ret t rest h =>
    obtain ⟨st, bp, pm⟩ := s
    simp only at h hok hbp hpm; subst h
    obtain ⟨⟨-, -, cur, hc, -⟩, h3⟩ := hok
    refine ⟨h3, hbp, hpm, ?_⟩
    rintro rfl; simp [top] at hc

theorem inv_exec {c : Cfg} (hwf : WellFormed c) {s s' : St} {as : List Act} (hx : Exec c s as s') (hi : Inv c s) : Inv c s' := by
  induction hx with
  | nil => exact hi
  | snoc _ hs ih => exact inv_step hwf ih hs

end Verif.Srp
