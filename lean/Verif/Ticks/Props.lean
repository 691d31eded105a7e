import Verif.Ticks.Lemmas

/-!
# C24, C25: time comparison and delay length

Specification vocabulary: true time is an unbounded natural number; a `w`-bit clock shows
`BitVec.ofNat w t` at true time `t` (`tick w t`). The theorems hold for every width `w > 0`,
in particular for the two widths 32 and 64 of the code.
-/

namespace Verif.Ticks

/-- **C24** For two true times less than half the counter range apart, the wrapping comparison
of the clock values is the chronological comparison of the true times. -/
theorem C24_compare_correct {w : Nat} (hw : 0 < w) (t₁ t₂ : Nat)
    (h₁ : t₁ < t₂ + 2 ^ (w - 1)) (h₂ : t₂ < t₁ + 2 ^ (w - 1)) :
    compare (BitVec.ofNat w t₁) (BitVec.ofNat w t₂) = Ord.compare t₁ t₂ := by
  have h := toInt_tick_sub_of_bounds (w := w) (a := t₁) (b := t₂) hw (by omega) h₁
  unfold tick at h
  unfold compare; rw [h]
  rcases Nat.lt_trichotomy t₁ t₂ with h | h | h
  · rw [Nat.compare_eq_lt.2 h, int_compare_lt.2 (by omega)]
  · subst h; simp
  · rw [Nat.compare_eq_gt.2 h, int_compare_gt.2 (by omega)]

example : compare (5#32) (0xffff_fffb#32) = .gt := by decide
example : (5 + 2 ^ 32 : Nat) < 4294967291 + 2 ^ (32 - 1) ∧ 4294967291 < (5 + 2 ^ 32) + 2 ^ (32 - 1) := by
  decide

/-- **C24** (the bound is exact) For a later time `t₁` within one full counter range of `t₂`, the
comparison reports "later" exactly if the distance is below half the range; otherwise it
reports "earlier". -/
theorem C24_compare_exact {w : Nat} (hw : 0 < w) (t₁ t₂ : Nat)
    (h₁ : t₂ < t₁) (h₂ : t₁ < t₂ + 2 ^ w) :
    compare (BitVec.ofNat w t₁) (BitVec.ofNat w t₂)
      = if t₁ - t₂ < 2 ^ (w - 1) then .gt else .lt := by
  split
  · rename_i h
    rw [C24_compare_correct hw t₁ t₂ (by omega) (by omega), Nat.compare_eq_gt.2 h₁]
  · rename_i h
    have hh := toInt_tick_sub_far (w := w) (a := t₁) (b := t₂) hw (by omega) h₂
    unfold tick at hh
    unfold compare; rw [hh, int_compare_lt.2 (by omega)]

example : compare (0x8000_0000#32) (0#32) = .lt := by decide

/-- **C24** `is_at_least` for times less than half the range apart is `≥` on true times. -/
theorem C24_is_at_least_correct {w : Nat} (hw : 0 < w) (t₁ t₂ : Nat)
    (h₁ : t₁ < t₂ + 2 ^ (w - 1)) (h₂ : t₂ < t₁ + 2 ^ (w - 1)) :
    isAtLeast (BitVec.ofNat w t₁) (BitVec.ofNat w t₂) = decide (t₂ ≤ t₁) := by
  rw [Bool.eq_iff_iff, isAtLeast_iff, decide_eq_true_iff]
  have h := toInt_tick_sub_of_bounds (w := w) (a := t₁) (b := t₂) hw (by omega) h₁
  unfold tick at h; rw [h]; omega

example : isAtLeast (7#64) (7#64) = true ∧ isAtLeast (6#64) (7#64) = false := by decide

/-- **C25** A delay of `d` ticks created at true time `t0` is not ready at any time `t ≥ t0` before
`d` ticks (and, for `d > 0`, one more) have elapsed, provided `d` is at most half the range minus one. -/
theorem C25_delay_not_early {w : Nat} (hw : 0 < w) (t0 d t : Nat)
    (hd : d < 2 ^ (w - 1)) (ht : t0 ≤ t)
    (hready : delayReady (BitVec.ofNat w t) (deadline (BitVec.ofNat w t0) (BitVec.ofNat w d)) = true) :
    t0 + d + (if d = 0 then 0 else 1) ≤ t := by
  have hs := two_pow_split hw
  have hdl := deadline_tick (w := w) t0 d (by omega)
  have hr := hready
  unfold tick at hdl
  rw [hdl, delayReady, isAtLeast_iff] at hr
  have h01 : (if d = 0 then 0 else 1) ≤ 1 := by split <;> omega
  generalize (if d = 0 then 0 else 1) = e at *
  rcases Nat.lt_or_ge t (t0 + d + e) with hlt | hge
  · have := toInt_tick_sub_of_bounds (w := w) (a := t) (b := t0 + d + e) hw (by omega) (by omega)
    unfold tick at this; omega
  · exact hge

example : delayReady (BitVec.ofNat 32 (2 ^ 32 + 4))
    (deadline (BitVec.ofNat 32 (2 ^ 32 - 5)) (BitVec.ofNat 32 8)) = true := by decide
example : delayReady (BitVec.ofNat 32 (2 ^ 32 + 3))
    (deadline (BitVec.ofNat 32 (2 ^ 32 - 5)) (BitVec.ofNat 32 8)) = false := by decide

/-- **C25** Completeness: once the requested time has elapsed, the delay is ready, and stays ready for half
the counter range. -/
theorem C25_delay_ready_after {w : Nat} (hw : 0 < w) (t0 d t : Nat)
    (hd : d < 2 ^ w) (ht : t0 + d + (if d = 0 then 0 else 1) ≤ t)
    (ht2 : t < t0 + d + (if d = 0 then 0 else 1) + 2 ^ (w - 1)) :
    delayReady (BitVec.ofNat w t) (deadline (BitVec.ofNat w t0) (BitVec.ofNat w d)) = true := by
  have hdl := deadline_tick (w := w) t0 d hd
  unfold tick at hdl
  rw [hdl, delayReady, isAtLeast_iff]
  generalize (if d = 0 then 0 else 1) = e at *
  have := toInt_tick_sub_of_bounds (w := w) (a := t) (b := t0 + d + e) hw (by omega) (by omega)
  unfold tick at this; omega

example : (3 : Nat) < 2 ^ 32 ∧ 10 + 3 + (if 3 = 0 then 0 else 1) ≤ 14 := by decide

/-- **C25** (the limit is exact) A delay of half the range or more is ready at the
very moment it is created, i.e. it does not delay at all. -/
theorem C25_delay_limit_exact {w : Nat} (hw : 1 < w) (t0 d : Nat)
    (hd : 2 ^ (w - 1) ≤ d) (hd2 : d < 2 ^ w) :
    delayReady (BitVec.ofNat w t0) (deadline (BitVec.ofNat w t0) (BitVec.ofNat w d)) = true := by
  have hs := two_pow_split (w := w) (by omega)
  have hpos : 0 < 2 ^ (w - 1) := Nat.two_pow_pos _
  have hdl := deadline_tick (w := w) t0 d hd2
  unfold tick at hdl
  rw [hdl, delayReady, isAtLeast_iff]
  have h0 : d ≠ 0 := by omega
  simp only [h0, if_false]
  have h2 : BitVec.ofNat w t0 = tick w (t0 + 2 ^ w) := (tick_add_pow w t0).symm
  have := toInt_tick_sub_of_bounds (w := w) (a := t0 + 2 ^ w) (b := t0 + d + 1) (by omega)
    (by omega) (by omega)
  rw [h2]
  unfold tick at *; rw [this]; omega

example : delayReady (100#32) (deadline (100#32) (0x8000_0000#32)) = true := by decide
example : delayReady (100#32) (deadline (100#32) (0x7fff_ffff#32)) = false := by decide

/-- **C25** for the blocking `embedded_hal` delays: if the busy loop, reading the clock at the
(non-decreasing or not) true times `ts ≥ t0`, exits, then at the exit reading at least `d` ticks plus the
one tick of uncertainty have elapsed. -/
theorem C25_blocking_delay_not_early {w : Nat} (hw : 0 < w) (t0 d : Nat) (ts : List Nat)
    (hd : d < 2 ^ (w - 1)) (hts : ∀ t ∈ ts, t0 ≤ t)
    (rest : List (BitVec w))
    (hexit : busyLoop (deadline (BitVec.ofNat w t0) (BitVec.ofNat w d)) (ts.map (BitVec.ofNat w)) = some rest) :
    ∃ t ∈ ts, rest.head? = some (BitVec.ofNat w t) ∧ t0 + d + (if d = 0 then 0 else 1) ≤ t := by
  induction ts with
  | nil => simp [busyLoop] at hexit
  | cons t ts ih =>
    simp only [List.map_cons, busyLoop] at hexit
    split at hexit
    · obtain ⟨t', ht', h1, h2⟩ := ih (fun t ht => hts t (List.mem_cons_of_mem _ ht)) hexit
      exact ⟨t', List.mem_cons_of_mem _ ht', h1, h2⟩
    · rename_i hnl
      refine ⟨t, List.mem_cons_self, ?_, ?_⟩
      · cases hexit; rfl
      · apply C25_delay_not_early hw t0 d t hd (hts t List.mem_cons_self)
        unfold delayReady
        rw [← isAtLeast_false_iff] at hnl
        simpa using hnl

example : busyLoop (deadline (BitVec.ofNat 32 10) (BitVec.ofNat 32 2)) ([10, 11, 12, 13].map (BitVec.ofNat 32))
    = some [13#32] := by decide

/-! ## C25 in physical time

Physical time is counted in arbitrarily small units; a tick lasts `p` of them, the counter shows the number of whole ticks that have passed: a call falls somewhere inside a tick. -/

/-- **C25** In physical time: a delay of `d` ticks, created at the instant `u0` and found ready at the instant `u1`, lasts at least `d` whole ticks (`d * p` units), wherever inside their ticks the two instants lie. -/
theorem C25_physical_time {w : Nat} (hw : 0 < w) (p u0 u1 d : Nat) (hp : 0 < p) (hd : d < 2 ^ (w - 1)) (hu : u0 ≤ u1)
    (hready : delayReady (BitVec.ofNat w (u1 / p)) (deadline (BitVec.ofNat w (u0 / p)) (BitVec.ofNat w d)) = true) : u0 + d * p ≤ u1 := by
  have h := C25_delay_not_early hw (u0 / p) d (u1 / p) hd (Nat.div_le_div_right hu) hready
  by_cases h0 : d = 0
  · subst h0; simpa using hu
  · rw [if_neg h0] at h
    have h1 : u0 < (u0 / p + 1) * p := by rw [Nat.mul_comm]; exact Nat.lt_mul_div_succ u0 hp
    have h2 : u1 / p * p ≤ u1 := Nat.div_mul_le_self u1 p
    have h3 : (u0 / p + d + 1) * p ≤ u1 / p * p := Nat.mul_le_mul_right p h
    have h4 : (u0 / p + d + 1) * p = (u0 / p + 1) * p + d * p := by rw [← Nat.add_mul]; congr 1; omega
    omega

theorem atLeastTicks_le (nom den per x : Nat) (h : 0 < nom * per) : x * den ≤ atLeastTicks nom den per x * (nom * per) := by
  unfold atLeastTicks
  have h1 := Nat.lt_mul_div_succ (x * den + (nom * per - 1)) h
  rw [Nat.mul_add, Nat.mul_one, Nat.mul_comm (nom * per)] at h1
  omega

/-- **C25** `delay_ns(x)` (`per = 10^9`), `delay_us(x)` (`10^6`), `delay_ms(x)` (`10^3`), blocking and asynchronous: with a tick of `nom/den` seconds and `U` units of physical time per second (so that a tick lasts `p` units, `p * den = nom * U`),
the time from the call to the moment the delay is found over is at least `x / per` seconds: `x * U ≤ elapsed * per`. (`hd`: the delay is less than half the range of the clock.) -/
theorem C25_embedded_hal_delay {w : Nat} (hw : 0 < w) (nom den per U p u0 u1 x : Nat) (hnom : 0 < nom) (hden : 0 < den) (hper : 0 < per) (hp : 0 < p) (hU : p * den = nom * U)
    (hd : atLeastTicks nom den per x < 2 ^ (w - 1)) (hu : u0 ≤ u1)
    (hready : delayReady (BitVec.ofNat w (u1 / p)) (halDeadline nom den per (BitVec.ofNat w (u0 / p)) x) = true) : x * U ≤ (u1 - u0) * per := by
  have h1 := C25_physical_time hw p u0 u1 _ hp hd hu hready
  have h2 := atLeastTicks_le nom den per x (Nat.mul_pos hnom hper)
  generalize atLeastTicks nom den per x = d at *
  have h3 : d * p ≤ u1 - u0 := by omega
  -- multiply by den * nom
  have h4 : x * U * (den * nom) ≤ (u1 - u0) * per * (den * nom) := by
    calc x * U * (den * nom) = x * den * (nom * U) := by ac_rfl
      _ ≤ d * (nom * per) * (nom * U) := Nat.mul_le_mul_right _ h2
      _ = d * (nom * per) * (p * den) := by rw [hU]
      _ = d * p * (per * (den * nom)) := by ac_rfl
      _ ≤ (u1 - u0) * (per * (den * nom)) := Nat.mul_le_mul_right _ h3
      _ = (u1 - u0) * per * (den * nom) := by ac_rfl
  exact Nat.le_of_mul_le_mul_right h4 (Nat.mul_pos hden hnom)

/-- Non-vacuity: 32768 Hz clock, `delay_us(100)` = 4 ticks (122 µs); called in the middle of a tick and over 5 ticks later. -/
example : atLeastTicks 1 32768 1000000 100 = 4 ∧ (1000 * 32768 = 1 * 32768000) ∧
    delayReady (BitVec.ofNat 32 (15000 / 1000)) (halDeadline 1 32768 1000000 (BitVec.ofNat 32 (10500 / 1000)) 100) = true ∧
    delayReady (BitVec.ofNat 32 (14999 / 1000)) (halDeadline 1 32768 1000000 (BitVec.ofNat 32 (10500 / 1000)) 100) = false := by decide

end Verif.Ticks
