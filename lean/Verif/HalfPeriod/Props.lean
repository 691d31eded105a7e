import Verif.HalfPeriod.Model

/-!
# C31, C32: the half-period clock extension
-/

namespace Verif.HalfPeriod

theorem two_pow_pred {b : Nat} (hb : 0 < b) : 2 ^ b = 2 * 2 ^ (b - 1) := by
  obtain ⟨k, rfl⟩ : ∃ k, b = k + 1 := ⟨b - 1, by omega⟩
  simp [Nat.pow_succ, Nat.mul_comm]

theorem xor_pow_lt {k r : Nat} (hr : r < 2 ^ k) : 2 ^ k ^^^ r = 2 ^ k + r := by
  have h1 : 2 ^ k + r = 2 ^ k ||| r := by
    have h := Nat.two_pow_add_eq_or_of_lt hr 1
    simpa using h
  rw [h1]
  apply Nat.eq_of_testBit_eq
  intro i
  simp only [Nat.testBit_xor, Nat.testBit_or, Nat.testBit_two_pow]
  by_cases hi : k = i
  · subst hi; simp [Nat.testBit_lt_two_pow hr]
  · simp [hi]

theorem xor_pow_add {k r : Nat} (hr : r < 2 ^ k) : 2 ^ k ^^^ (2 ^ k + r) = r := by
  rw [← xor_pow_lt hr, ← Nat.xor_assoc]; simp

/-- the value of the lower half: bit `k` of `h * 2^k` is the parity of `h` -/
theorem and_pow_mul (k h : Nat) : 2 ^ k &&& (h * 2 ^ k) = if h % 2 = 1 then 2 ^ k else 0 := by
  apply Nat.eq_of_testBit_eq
  intro i
  rw [Nat.testBit_and, Nat.testBit_two_pow]
  by_cases hi : k = i
  · subst hi
    have : (h * 2 ^ k).testBit k = decide (h % 2 = 1) := by
      rw [Nat.testBit_mul_two_pow]; simp [Nat.testBit_zero]
    rw [this]
    split <;> simp_all [Nat.testBit_two_pow_self]
  · split <;> simp [hi]

/-- sum of the two halves over `Nat` -/
theorem halves_sum {b t hp : Nat} (hb : 0 < b)
    (hhp : hp = t / 2 ^ (b - 1) ∨ hp + 1 = t / 2 ^ (b - 1)) :
    hp * 2 ^ (b - 1) + ((2 ^ (b - 1) &&& (hp * 2 ^ (b - 1))) ^^^ (t % 2 ^ b)) = t := by
  rw [and_pow_mul, two_pow_pred hb]
  generalize hk : b - 1 = k at *
  generalize hH : t / 2 ^ k = H at *
  have hpos : 0 < 2 ^ k := Nat.two_pow_pos k
  have ht : t = H * 2 ^ k + t % 2 ^ k := by
    rw [← hH, Nat.mul_comm]; exact (Nat.div_add_mod t (2 ^ k)).symm
  have hr : t % 2 ^ k < 2 ^ k := Nat.mod_lt _ hpos
  generalize hrr : t % 2 ^ k = r at *
  have hmod : t % (2 * 2 ^ k) = (H % 2) * 2 ^ k + r := by
    rw [ht]
    have hH2 : H = 2 * (H / 2) + H % 2 := (Nat.div_add_mod H 2).symm
    have e : H * 2 ^ k + r = ((H % 2) * 2 ^ k + r) + (2 * 2 ^ k) * (H / 2) := by
      conv => lhs; rw [hH2]
      rw [Nat.add_mul, Nat.mul_right_comm]; omega
    rw [e, Nat.add_mul_mod_self_left, Nat.mod_eq_of_lt]
    rcases Nat.mod_two_eq_zero_or_one H with h | h <;> rw [h] <;> omega
  rw [hmod]
  rcases hhp with h | h
  · subst h
    rcases Nat.mod_two_eq_zero_or_one hp with h2 | h2
    · simp [h2]; omega
    · simp only [h2, if_true, Nat.one_mul, xor_pow_add hr]; omega
  · have hH : H = hp + 1 := h.symm
    subst hH
    rcases Nat.mod_two_eq_zero_or_one hp with h2 | h2
    · have h3 : (hp + 1) % 2 = 1 := by omega
      simp only [h2, h3, Nat.zero_ne_one, if_false, Nat.zero_xor, Nat.one_mul]
      rw [Nat.add_mul] at ht; omega
    · have h3 : (hp + 1) % 2 = 0 := by omega
      simp only [h2, h3, if_true, Nat.zero_mul, Nat.zero_add, xor_pow_lt hr]
      rw [Nat.add_mul] at ht; omega

theorem upper_toNat {m b t hp : Nat} (ht : t < 2 ^ m)
    (hle : hp ≤ t / 2 ^ (b - 1)) :
    (BitVec.ofNat m hp <<< (b - 1)).toNat = hp * 2 ^ (b - 1) := by
  have h1 : hp * 2 ^ (b - 1) ≤ t :=
    Nat.le_trans (Nat.mul_le_mul_right _ hle) (Nat.div_mul_le_self _ _)
  have h2 : hp ≤ t := Nat.le_trans hle (Nat.div_le_self _ _)
  have h3 : hp % 2 ^ m = hp := Nat.mod_eq_of_lt (by omega)
  rw [BitVec.toNat_shiftLeft, BitVec.toNat_ofNat, h3, Nat.shiftLeft_eq, Nat.mod_eq_of_lt (by omega)]

theorem lower_toNat {m b t hp : Nat} (ht : t < 2 ^ m)
    (hle : hp ≤ t / 2 ^ (b - 1)) :
    ((1#m <<< (b - 1)) &&& (BitVec.ofNat m hp <<< (b - 1))).toNat
      = 2 ^ (b - 1) &&& (hp * 2 ^ (b - 1)) := by
  rw [BitVec.toNat_and, upper_toNat ht hle]
  have h1 : hp * 2 ^ (b - 1) ≤ t :=
    Nat.le_trans (Nat.mul_le_mul_right _ hle) (Nat.div_mul_le_self _ _)
  by_cases hp0 : hp = 0
  · subst hp0; simp
  · have h3 : 2 ^ (b - 1) ≤ hp * 2 ^ (b - 1) := Nat.le_mul_of_pos_left _ (by omega)
    have hm : 0 < m := by
      rcases Nat.eq_zero_or_pos m with rfl | h
      · have := Nat.two_pow_pos (b - 1); simp at ht; omega
      · exact h
    have h1m : 1 < 2 ^ m := Nat.one_lt_two_pow (by omega)
    rw [BitVec.toNat_shiftLeft, BitVec.toNat_ofNat, Nat.mod_eq_of_lt h1m, Nat.shiftLeft_eq,
      Nat.mod_eq_of_lt (by omega), Nat.one_mul]

theorem timer_toNat {m b t : Nat} (ht : t < 2 ^ m) :
    (BitVec.ofNat m (t % 2 ^ b)).toNat = t % 2 ^ b := by
  rw [BitVec.toNat_ofNat, Nat.mod_eq_of_lt (Nat.lt_of_le_of_lt (Nat.mod_le _ _) ht)]

/-- **C31** Let `t` be the true number of ticks elapsed, representable in the output type. The timer register
shows `t % 2^bits`. If the half-period counter equals the number of half periods elapsed, or lags by one (an interrupt
has not been serviced yet), the computed time is exactly `t` — for every timer width and every output width. -/
theorem C31_calculate_now_exact {m bits : Nat} (hb : 0 < bits) (t hp : Nat) (ht : t < 2 ^ m)
    (hhp : hp = t / 2 ^ (bits - 1) ∨ hp + 1 = t / 2 ^ (bits - 1)) :
    (calculateNow bits (BitVec.ofNat m hp) (BitVec.ofNat m (t % 2 ^ bits))).toNat = t := by
  have hle : hp ≤ t / 2 ^ (bits - 1) := by omega
  have hsum := halves_sum hb hhp
  unfold calculateNow
  simp only
  rw [BitVec.toNat_add, BitVec.toNat_xor, lower_toNat ht hle, upper_toNat ht hle, timer_toNat ht, hsum,
    Nat.mod_eq_of_lt ht]

/-- the overflow race: counter wrapped to 5, overflow interrupt not yet serviced (hp = 1 instead of 2) -/
example : calculateNow 16 (1#64) (5#64) = 65541#64 := by decide
example : (1 + 1 : Nat) = 65541 / 2 ^ (16 - 1) ∧ 65541 % 2 ^ 16 = 5 := by decide

/-- **C31** (no arithmetic overflow) Under the same conditions neither the shift nor the checked addition of the code loses bits. -/
theorem C31_no_overflow {m bits : Nat} (hb : 0 < bits) (t hp : Nat) (ht : t < 2 ^ m)
    (hhp : hp = t / 2 ^ (bits - 1) ∨ hp + 1 = t / 2 ^ (bits - 1)) :
    (BitVec.ofNat m hp <<< (bits - 1)).toNat
      + (((1#m <<< (bits - 1)) &&& (BitVec.ofNat m hp <<< (bits - 1))) ^^^ BitVec.ofNat m (t % 2 ^ bits)).toNat
      < 2 ^ m := by
  have hle : hp ≤ t / 2 ^ (bits - 1) := by omega
  have hsum := halves_sum hb hhp
  rw [BitVec.toNat_xor, lower_toNat ht hle, upper_toNat ht hle, timer_toNat ht, hsum]
  exact ht

example : (3 : Nat) = 0x1ffff / 2 ^ (16 - 1) ∧ 0x1ffff < 2 ^ 64 := by decide

/-- **C31** Time never goes backwards: two reads at true times `t₁ ≤ t₂`, each with the half-period counter up to date or
lagging by one, give non-decreasing values. -/
theorem C31_monotonic {m bits : Nat} (hb : 0 < bits) (t₁ t₂ hp₁ hp₂ : Nat) (h12 : t₁ ≤ t₂) (ht : t₂ < 2 ^ m)
    (h₁ : hp₁ = t₁ / 2 ^ (bits - 1) ∨ hp₁ + 1 = t₁ / 2 ^ (bits - 1))
    (h₂ : hp₂ = t₂ / 2 ^ (bits - 1) ∨ hp₂ + 1 = t₂ / 2 ^ (bits - 1)) :
    (calculateNow bits (BitVec.ofNat m hp₁) (BitVec.ofNat m (t₁ % 2 ^ bits))).toNat
      ≤ (calculateNow bits (BitVec.ofNat m hp₂) (BitVec.ofNat m (t₂ % 2 ^ bits))).toNat := by
  rw [C31_calculate_now_exact hb t₁ hp₁ (by omega) h₁, C31_calculate_now_exact hb t₂ hp₂ ht h₂]
  exact h12

example : (1 : Nat) = 65535 / 2 ^ 15 ∧ 1 + 1 = 65536 / 2 ^ 15 := by decide

/-- **C31** (the condition is exact) With two unserviced half periods the result is a full period too low. -/
theorem C31_lag_two_wrong {m bits : Nat} (hb : 0 < bits) (t hp : Nat) (ht : t < 2 ^ m)
    (hhp : hp + 2 = t / 2 ^ (bits - 1)) :
    (calculateNow bits (BitVec.ofNat m hp) (BitVec.ofNat m (t % 2 ^ bits))).toNat + 2 ^ bits = t := by
  have hp2 := two_pow_pred hb
  have hge : 2 ^ bits ≤ t := by
    have : 2 * 2 ^ (bits - 1) ≤ t := by
      have h := Nat.div_mul_le_self t (2 ^ (bits - 1))
      have h2 : 2 * 2 ^ (bits - 1) ≤ t / 2 ^ (bits - 1) * 2 ^ (bits - 1) := Nat.mul_le_mul_right _ (by omega)
      omega
    omega
  have hmod : t % 2 ^ bits = (t - 2 ^ bits) % 2 ^ bits := by
    conv => lhs; rw [← Nat.sub_add_cancel hge]
    simp
  have hdiv : hp = (t - 2 ^ bits) / 2 ^ (bits - 1) := by
    have h := Nat.sub_mul_div_of_le t (2 ^ (bits - 1)) 2 (by rw [Nat.mul_comm]; omega)
    rw [hp2, Nat.mul_comm 2, h]; omega
  rw [hmod, C31_calculate_now_exact hb (t - 2 ^ bits) hp (by omega) (Or.inl hdiv)]
  omega

example : calculateNow 16 (0#64) (5#64) = 5#64 ∧ 0 + 2 = 65541 / 2 ^ (16 - 1) := by decide

/-! ### C32: interrupt bookkeeping -/

/-- Specification: the schedule services the timer between any two consecutive half-period marks. `t` is the current
true time and `fresh` tells whether the handler ran (or nothing was due) since the last mark. A mark is a multiple of `2^(bits-1)`. -/
def Timely (bits : Nat) : Nat → Bool → List Ev → Prop
  | _, _, [] => True
  | t, fresh, .tick :: evs =>
    if (t + 1) % 2 ^ (bits - 1) = 0 then fresh = true ∧ Timely bits (t + 1) false evs
    else Timely bits (t + 1) fresh evs
  | t, _, .service :: evs => Timely bits t true evs

structure Inv (bits : Nat) (s : St) (fresh : Bool) : Prop where
  ok : s.panicked = false
  notBoth : ¬ (s.ovf = true ∧ s.half = true)
  sync : s.hp + (if s.ovf then 1 else 0) + (if s.half then 1 else 0) = s.t / 2 ^ (bits - 1)
  ovfPar : s.ovf = true → s.hp % 2 = 1
  halfPar : s.half = true → s.hp % 2 = 0
  clean : fresh = true → s.ovf = false ∧ s.half = false

theorem inv_service {bits : Nat} {o : Order} {s : St} {f : Bool} (h : Inv bits s f) :
    Inv bits (service o s) true := by
  obtain ⟨h1, h2, h3, h4, h5, h6⟩ := h
  cases o <;> unfold service serviceOvf serviceHalf <;> rcases s with ⟨t, hp, _ | _, _ | _, _ | _⟩ <;>
    constructor <;> simp_all

theorem mod_two_pow_pred {bits t : Nat} (hb : 0 < bits) :
    t % 2 ^ bits = (t / 2 ^ (bits - 1) % 2) * 2 ^ (bits - 1) + t % 2 ^ (bits - 1) := by
  rw [two_pow_pred hb, Nat.mul_comm 2, Nat.mod_mul, Nat.mul_comm (2 ^ (bits - 1))]; omega

theorem inv_tick {bits : Nat} (hb : 0 < bits) {s : St} {f : Bool} (h : Inv bits s f)
    (ht : (s.t + 1) % 2 ^ (bits - 1) = 0 → f = true) :
    Inv bits (tickStep bits s) (if (s.t + 1) % 2 ^ (bits - 1) = 0 then false else f) := by
  obtain ⟨h1, h2, h3, h4, h5, h6⟩ := h
  have hpos : 0 < 2 ^ (bits - 1) := Nat.two_pow_pos _
  have hmod := mod_two_pow_pred (t := s.t + 1) hb
  unfold tickStep
  by_cases hm : (s.t + 1) % 2 ^ (bits - 1) = 0
  · obtain ⟨ho, hh⟩ := h6 (ht hm)
    have hdiv : (s.t + 1) / 2 ^ (bits - 1) = s.t / 2 ^ (bits - 1) + 1 := by
      rw [Nat.succ_div_of_mod_eq_zero]; exact hm
    simp only [ho, hh, Bool.false_or, hm, if_true] at *
    rw [hdiv] at hmod
    have h3' : s.hp = s.t / 2 ^ (bits - 1) := by simpa using h3
    rcases Nat.mod_two_eq_zero_or_one s.hp with hp2 | hp2
    · have e : (s.t / 2 ^ (bits - 1) + 1) % 2 = 1 := by omega
      rw [e] at hmod
      have hm2 : (s.t + 1) % 2 ^ bits = 2 ^ (bits - 1) := by omega
      have hne : ¬ (2 ^ (bits - 1) = 0) := by omega
      constructor <;> simp_all
    · have e : (s.t / 2 ^ (bits - 1) + 1) % 2 = 0 := by omega
      rw [e] at hmod
      have hm2 : (s.t + 1) % 2 ^ bits = 0 := by omega
      have hne : ¬ (0 = 2 ^ (bits - 1)) := by omega
      constructor <;> simp_all
  · have hdiv : (s.t + 1) / 2 ^ (bits - 1) = s.t / 2 ^ (bits - 1) := by
      rw [Nat.succ_div_of_mod_ne_zero]; exact hm
    have hr := Nat.mod_lt (s.t + 1) hpos
    have hne0 : (s.t + 1) % 2 ^ bits ≠ 0 := by omega
    have hneH : (s.t + 1) % 2 ^ bits ≠ 2 ^ (bits - 1) := by
      rw [hmod]
      rcases Nat.mod_two_eq_zero_or_one ((s.t + 1) / 2 ^ (bits - 1)) with e | e <;> rw [e] <;> omega
    simp only [hm, if_false]
    have e1 : ((s.t + 1) % 2 ^ bits == 0) = false := by simp [hne0]
    have e2 : ((s.t + 1) % 2 ^ bits == 2 ^ (bits - 1)) = false := by simp [hneH]
    simp only [e1, e2, Bool.or_false]
    exact ⟨h1, h2, by simpa [hdiv] using h3, h4, h5, h6⟩

theorem inv_run {bits : Nat} (hb : 0 < bits) {o : Order} (evs : List Ev) : ∀ {s : St} {f : Bool},
    Inv bits s f → Timely bits s.t f evs → ∃ f', Inv bits (run bits o s evs) f' := by
  induction evs with
  | nil => intro s f h _; exact ⟨f, h⟩
  | cons e evs ih =>
    intro s f h ht
    cases e with
    | tick =>
      simp only [Timely] at ht
      have hstep := inv_tick hb h (by intro hm; rw [if_pos hm] at ht; exact ht.1)
      refine ih (s := tickStep bits s) hstep ?_
      have : (tickStep bits s).t = s.t + 1 := rfl
      rw [this]
      split at ht
      · rw [if_pos (by assumption)]; exact ht.2
      · rw [if_neg (by assumption)]; exact ht
    | service =>
      have ht' : (service o s).t = s.t := by
        cases o <;> simp only [service, serviceOvf, serviceHalf] <;> repeat' split
        all_goals rfl
      refine ih (s := service o s) (inv_service h) ?_
      rw [ht']; simpa [Timely] using ht

/-- **C32** If the interrupt handler runs at least once between any two consecutive half-period marks, then — for both
orders of flag handling used by the backends, any timer width and any start value in the first half period — no parity assertion ever fires
and the half-period counter always equals the number of half periods elapsed or lags by one. -/
theorem C32_bookkeeping_in_sync {bits : Nat} (hb : 0 < bits) (o : Order) (t0 : Nat) (ht0 : t0 < 2 ^ (bits - 1))
    (evs : List Ev) (hevs : Timely bits t0 true evs) :
    let s := run bits o (start t0) evs
    s.panicked = false ∧ (s.hp = s.t / 2 ^ (bits - 1) ∨ s.hp + 1 = s.t / 2 ^ (bits - 1)) := by
  have hinit : Inv bits (start t0) true := by
    constructor <;> simp [start, Nat.div_eq_of_lt ht0]
  obtain ⟨f', h⟩ := inv_run (o := o) hb evs hinit hevs
  refine ⟨h.ok, ?_⟩
  have h3 := h.sync
  have h2 := h.notBoth
  generalize run bits o (start t0) evs = s at *
  rcases s with ⟨t, hp, _ | _, _ | _, _ | _⟩ <;> simp_all

/-- **C31 + C32** Consequently the extended clock read in any state of such an execution is the true time. -/
theorem C32_clock_exact {m bits : Nat} (hb : 0 < bits) (o : Order) (t0 : Nat) (ht0 : t0 < 2 ^ (bits - 1))
    (evs : List Ev) (hevs : Timely bits t0 true evs)
    (hfit : (run bits o (start t0) evs).t < 2 ^ m) :
    let s := run bits o (start t0) evs
    (calculateNow bits (BitVec.ofNat m s.hp) (BitVec.ofNat m (s.t % 2 ^ bits))).toNat = s.t :=
  C31_calculate_now_exact hb _ _ hfit (C32_bookkeeping_in_sync hb o t0 ht0 evs hevs).2

/-- non-vacuity: a 3-bit timer through one and a half periods with interrupts serviced late but in time -/
example : Timely 3 1 true
    [.tick, .tick, .tick, .tick, .tick, .service, .tick, .tick, .tick, .service, .tick, .tick, .tick, .tick] := by
  simp [Timely]
example : (run 3 .overflowFirst (start 1)
    [.tick, .tick, .tick, .tick, .tick, .service, .tick, .tick, .tick, .service, .tick, .tick, .tick, .tick]).hp = 2 := by
  decide

/-- **C32** detection: an unserviced half period is noticed — when both flags are pending at service time after the first half mark was missed,
the assertion fires (shown for the order used by the STM32 backend on the shortest such schedule). -/
example : (run 3 .overflowFirst (start 0) (List.replicate 8 .tick ++ [.service])).panicked = true := by decide

end Verif.HalfPeriod
