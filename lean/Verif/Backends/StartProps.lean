import Verif.Backends.Start

/-! # C65: the tick rate of a started monotonic -/

namespace Verif.Backends

/-! ## Specification: the hardware -/

/-- Number of clock cycles per tick for the field value `f`: SysTick counts from the reload value to zero; STM32 and Silabs TIMER divide by `f + 1`; nRF TIMER and LETIMER by `2 ^ f`. -/
def RateTimer.divider : RateTimer → Nat → Nat
  | .systick, f | .stm32, f | .silabsTimer, f => f + 1
  | .nrfTimer, f | .letimer, f => 2 ^ f

/-- Field values the hardware has: 24-bit SysTick reload (0 disables the counter), 16-bit STM32 prescaler, 10-bit Silabs prescaler, nRF prescaler 0..9, LETIMER prescaler 0..7 (values 8..15 are not offered by the code's table). -/
def RateTimer.legal : RateTimer → Nat → Prop
  | .systick, f => 0 < f ∧ f < 2 ^ 24
  | .stm32, f => f < 2 ^ 16
  | .silabsTimer, f => f < 2 ^ 10
  | .nrfTimer, f => f ≤ 9
  | .letimer, f => f ≤ 7

/-- The timer clock: given by the caller, or fixed (16 MHz for the nRF TIMER, 32768 Hz for the LETIMER). -/
def RateTimer.clock : RateTimer → Nat → Nat
  | .nrfTimer, _ => 16000000
  | .letimer, _ => 32768
  | _, clk => clk

/-- With field value `f` the timer ticks exactly `hz` times per second. -/
def RateTimer.Exact (tm : RateTimer) (clk hz f : Nat) : Prop := tm.divider f * hz = tm.clock clk

/-! ## Proofs -/

theorem nrf_some {hz f : Nat} (h : nrfPrescaler hz = some f) : f ≤ 9 ∧ 2 ^ f * hz = 16000000 := by
  simp only [nrfPrescaler] at h
  split at h <;> cases h <;> decide

theorem letimer_some {hz f : Nat} (h : letimerPresc hz = some f) : f ≤ 7 ∧ 2 ^ f * hz = 32768 := by
  simp only [letimerPresc] at h
  split at h <;> cases h <;> decide

theorem div_exact {clk hz : Nat} (h0 : hz ≠ 0) (h1 : ¬ clk % hz ≠ 0) (h2 : clk / hz ≠ 0) : (clk / hz - 1 + 1) * hz = clk := by
  have h3 : clk / hz - 1 + 1 = clk / hz := by have : 0 < clk / hz := Nat.pos_of_ne_zero h2; omega
  rw [h3]
  exact Nat.div_mul_cancel (Nat.dvd_of_mod_eq_zero (by omega))

/-- **C65** (partial) If `start` does not panic, the timer ticks at exactly the requested rate, with a field value that the hardware has: for SysTick, STM32, nRF TIMER and LETIMER always, for the Silabs TIMER if the
divisor is at most 1024. Missing: larger divisors on the Silabs TIMER, for which the claim is false (`C65_silabs_violated`). -/
theorem C65_rate_exact_partial (tm : RateTimer) {clk hz f : Nat} (h : tm.start clk hz = some f) (hs : tm = .silabsTimer → clk ≤ 1024 * hz) :
    tm.legal f ∧ tm.Exact clk hz f := by
  cases tm with
  | systick =>
    simp only [RateTimer.start, systickReload] at h
    repeat' split at h
    all_goals (try cases h)
    rename_i h0 h1 h2 h3 h4
    exact ⟨⟨by omega, by omega⟩, div_exact h0 h1 h2⟩
  | stm32 =>
    simp only [RateTimer.start, stm32Psc] at h
    repeat' split at h
    all_goals (try cases h)
    rename_i h0 h1 h2 h3
    exact ⟨h3, div_exact h0 h1 h2⟩
  | silabsTimer =>
    simp only [RateTimer.start, silabsPsc] at h
    repeat' split at h
    all_goals (try cases h)
    rename_i h0 h1 h2 h3
    have h4 : clk / hz ≤ 1024 := (Nat.div_le_iff_le_mul_add_pred (by omega)).mpr (by have := hs rfl; rw [Nat.mul_comm]; omega)
    have h5 : (clk / hz - 1) % 2 ^ 10 = clk / hz - 1 := Nat.mod_eq_of_lt (by omega)
    rw [h5]
    exact ⟨show clk / hz - 1 < 2 ^ 10 by omega, div_exact h0 h1 h2⟩
  | nrfTimer => exact nrf_some h
  | letimer => exact letimer_some h

/-- **C65** (violated) The Silabs TIMER start function accepts divisors up to 65536 but the prescaler field has 10 bits: with a 39.168 MHz clock and a requested rate of 4080 Hz (divisor 9600) it does not panic and the timer runs 25 times too fast. -/
theorem C65_silabs_violated : ∃ clk hz f, clk < 2 ^ 32 ∧ RateTimer.start .silabsTimer clk hz = some f ∧ ¬ RateTimer.Exact .silabsTimer clk hz f ∧
    RateTimer.divider .silabsTimer f * (25 * hz) = RateTimer.clock .silabsTimer clk :=
  ⟨39168000, 4080, 383, by decide, by decide, by simp [RateTimer.Exact, RateTimer.divider, RateTimer.clock], by decide⟩

/-- **C65** `start` panics only if no field value gives exactly the requested rate. -/
theorem C65_refused_only_if_impossible (tm : RateTimer) {clk hz : Nat} (h : tm.start clk hz = none) (hz0 : 0 < tm.clock clk) : ¬ ∃ f, tm.legal f ∧ tm.Exact clk hz f := by
  rintro ⟨f, hl, he⟩
  have lin : ∀ {k : Nat}, (k + 1) * hz = clk → 0 < clk → hz ≠ 0 ∧ clk % hz = 0 ∧ clk / hz = k + 1 := by
    intro k hk hc
    have h0 : hz ≠ 0 := by rintro rfl; simp at hk; omega
    refine ⟨h0, by rw [← hk]; exact Nat.mul_mod_left _ _, by rw [← hk]; exact Nat.mul_div_cancel _ (by omega)⟩
  cases tm with
  | systick =>
    obtain ⟨h0, h1, h2⟩ := lin he hz0
    obtain ⟨hl1, hl2⟩ : 0 < f ∧ f < 2 ^ 24 := hl
    simp only [RateTimer.start, systickReload, h1, h2, if_neg h0] at h
    rw [if_neg (by simp), if_neg (by omega), if_neg (by omega), if_neg (by omega)] at h
    cases h
  | stm32 =>
    obtain ⟨h0, h1, h2⟩ := lin he hz0
    have hl' : f < 2 ^ 16 := hl
    simp only [RateTimer.start, stm32Psc, h1, h2, if_neg h0] at h
    rw [if_neg (by simp), if_neg (by omega), if_pos (by omega)] at h
    cases h
  | silabsTimer =>
    obtain ⟨h0, h1, h2⟩ := lin he hz0
    have hl' : f < 2 ^ 10 := hl
    simp only [RateTimer.start, silabsPsc, h1, h2, if_neg h0] at h
    rw [if_neg (by simp), if_neg (by omega), if_pos (by omega)] at h
    cases h
  | nrfTimer =>
    have hl' : f ≤ 9 := hl
    have he' : 2 ^ f * hz = 16000000 := he
    have hv : hz = 16000000 / 2 ^ f := by rw [← he', Nat.mul_div_cancel_left _ (Nat.two_pow_pos f)]
    subst hv
    have : ∀ f, f ≤ 9 → nrfPrescaler (16000000 / 2 ^ f) ≠ none := by decide
    exact this f hl' h
  | letimer =>
    have hl' : f ≤ 7 := hl
    have he' : 2 ^ f * hz = 32768 := he
    have hv : hz = 32768 / 2 ^ f := by rw [← he', Nat.mul_div_cancel_left _ (Nat.two_pow_pos f)]
    subst hv
    have : ∀ f, f ≤ 7 → letimerPresc (32768 / 2 ^ f) ≠ none := by decide
    exact this f hl' h

/-- Non-vacuity: an STM32 timer clock of 84 MHz with 1 MHz ticks, SysTick at 1 kHz from 12 MHz, a Silabs divisor of 39; and a refused rate. -/
example : RateTimer.start .stm32 84000000 1000000 = some 83 ∧ RateTimer.start .systick 12000000 1000 = some 11999 ∧
    RateTimer.start .silabsTimer 39000000 1000000 = some 38 ∧ RateTimer.start .nrfTimer 0 1000000 = some 4 ∧ RateTimer.start .letimer 0 1024 = some 5 ∧
    RateTimer.start .stm32 84000000 1000 = none ∧ ¬ ∃ f, RateTimer.legal .stm32 f ∧ RateTimer.Exact .stm32 84000000 1000 f :=
  ⟨by decide, by decide, by decide, by decide, by decide, by decide, C65_refused_only_if_impossible .stm32 (by decide) (by decide)⟩

end Verif.Backends
