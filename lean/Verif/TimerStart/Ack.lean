/-!
# C110: acknowledging one interrupt flag of a timer leaves the others

Model of the accesses by which the monotonics clear interrupt flags, on flag words of any width. C32 relies on it: clearing the overflow flag must not clear the half-period flag.
-/

namespace Verif.TimerStart.Ack

/-- The monotonics, by the register used to clear flags. -/
inductive Chip where
  /-- `SR`, a zero written clears (`rc_w0`): `rtic-monotonics/src/stm32.rs:393-396,414-417,423-426` and `:536-539,557-560,566-569` -/
  | stm32
  /-- `SR`, a one written clears: `imxrt.rs:235,249,255` -/
  | imxrt
  /-- `IF_CLR`, a one written clears: `silabs/timer.rs:396,416,425`, `silabs/rtcc.rs:135,146,157`, `silabs/letimer.rs:160,171,182` -/
  | silabs
  /-- `INT_CLR`, a one written clears: `esp32c3.rs:117-120`, `esp32c6.rs:118-121` -/
  | esp
  /-- one register per event, a zero written clears: `nrf/rtc.rs:272,277,317`, `nrf/timer.rs:314,321,334` -/
  | nrf
  /-- `INTR`, a one written clears, accessed by `modify`: `rp2040.rs:113-115`, `rp235x.rs:115-117` -/
  | rp
deriving DecidableEq, Repr

/-- An access; `w` is the width of the flag register. -/
inductive Acc (w : Nat) where
  /-- the flag word is read into a variable -/
  | read
  /-- the flag word is written: `e` computes the value from what was read -/
  | write (e : BitVec w → BitVec w)
  /-- the register of one event is written with zero -/
  | event (k : Nat)

/-- The accesses that clear flag `k`. `stm32`: `r.0 = !0; r.set_..(false)`, i.e. all ones but bit `k`. `imxrt`, `silabs`, `esp`: a `write` that starts from zero and sets bit `k`.
`rp`: `intr().modify(|_, w| w.alarm_0().bit(true))`, a read followed by a write of what was read with bit `k` set. -/
def Chip.code {w : Nat} (k : Nat) : Chip → List (Acc w)
  | .stm32 => [.write fun _ => ~~~ (BitVec.twoPow w k)]
  | .imxrt => [.write fun _ => BitVec.twoPow w k]
  | .silabs => [.write fun _ => BitVec.twoPow w k]
  | .esp => [.write fun _ => BitVec.twoPow w k]
  | .nrf => [.event k]
  | .rp => [.read, .write fun r => r ||| BitVec.twoPow w k]

/-- Hardware: effect of writing `v` to the register when the flags are `f`. -/
def Chip.written {w : Nat} (f v : BitVec w) : Chip → BitVec w
  | .stm32 => f &&& v
  | _ => f &&& ~~~ v

/-- An execution: the hardware may raise any flags (`g`) before each access. `r` is what was read last. -/
inductive Run {w : Nat} (c : Chip) : BitVec w → BitVec w → List (Acc w) → BitVec w → Prop where
  | done (f r : BitVec w) : Run c f r [] f
  | raise {f r f' : BitVec w} {p : List (Acc w)} (g : BitVec w) (h : Run c (f ||| g) r p f') : Run c f r p f'
  | read {f r f' : BitVec w} {p : List (Acc w)} (h : Run c f f p f') : Run c f r (.read :: p) f'
  | write {f r f' : BitVec w} {e : BitVec w → BitVec w} {p : List (Acc w)} (h : Run c (c.written f (e r)) r p f') : Run c f r (.write e :: p) f'
  | event {f r f' : BitVec w} {k : Nat} {p : List (Acc w)} (h : Run c (f &&& ~~~ BitVec.twoPow w k) r p f') : Run c f r (.event k :: p) f'

theorem bit_clear {w k j : Nat} {f : BitVec w} (hj : j ≠ k) : (f &&& ~~~ BitVec.twoPow w k).getLsbD j = f.getLsbD j := by
  by_cases hw : j < w
  · simp [BitVec.getLsbD_twoPow, decide_eq_false (Ne.symm hj)]; exact fun _ => hw
  · rw [BitVec.getLsbD_of_ge _ _ (by omega), BitVec.getLsbD_of_ge _ _ (by omega)]

theorem run_nil {w : Nat} {c : Chip} {f r f' : BitVec w} (h : Run c f r [] f') {j : Nat} (hf : f.getLsbD j = true) : f'.getLsbD j = true := by
  generalize hq : ([] : List (Acc w)) = q at h
  induction h with
  | done => exact hf
  | raise g h ih => exact ih (by simp [hf]) hq
  | _ => cases hq

theorem run_one {w : Nat} {c : Chip} {f r f' : BitVec w} {a : Acc w} {k j : Nat} (hj : j ≠ k)
    (ha : a = .event k ∨ ∃ e, a = .write e ∧ ∀ f r, c.written f (e r) = f &&& ~~~ BitVec.twoPow w k) (h : Run c f r [a] f') (hf : f.getLsbD j = true) : f'.getLsbD j = true := by
  generalize hq : [a] = q at h
  induction h with
  | done => cases hq
  | raise g h ih => exact ih (by simp [hf]) hq
  | read h ih => cases hq; rcases ha with h | ⟨e, h, -⟩ <;> cases h
  | write h ih =>
    cases hq
    rcases ha with e | ⟨e, e1, e2⟩
    · cases e
    · cases e1; rw [e2] at h; exact run_nil h (by rw [bit_clear hj]; exact hf)
  | event h ih =>
    cases hq
    rcases ha with e | ⟨e, e1, e2⟩
    · cases e; exact run_nil h (by rw [bit_clear hj]; exact hf)
    · cases e1

/-- **C110** (partial) STM32, i.MX RT, Silabs, ESP32 and nRF: whatever flags are set before and whatever flags the hardware raises meanwhile, clearing flag `k` leaves every other flag that was set. Missing: RP2040 and RP235x. -/
theorem C110_others_kept_partial {w : Nat} {c : Chip} (hc : c ≠ .rp) {k j : Nat} (hj : j ≠ k) {f r f' : BitVec w} (h : Run c f r (c.code k) f') (hf : f.getLsbD j = true) : f'.getLsbD j = true := by
  cases c with
  | stm32 => exact run_one hj (.inr ⟨_, rfl, fun _ _ => rfl⟩) h hf
  | imxrt => exact run_one hj (.inr ⟨_, rfl, fun _ _ => rfl⟩) h hf
  | silabs => exact run_one hj (.inr ⟨_, rfl, fun _ _ => rfl⟩) h hf
  | esp => exact run_one hj (.inr ⟨_, rfl, fun _ _ => rfl⟩) h hf
  | nrf => exact run_one hj (.inl rfl) h hf
  | rp => exact absurd rfl hc

/-- some flag is never raised by the hardware during an execution -/
inductive Quiet {w : Nat} (c : Chip) (k : Nat) : BitVec w → BitVec w → List (Acc w) → BitVec w → Prop where
  | done (f r : BitVec w) : Quiet c k f r [] f
  | raise {f r f' : BitVec w} {p : List (Acc w)} (g : BitVec w) (hg : g.getLsbD k = false) (h : Quiet c k (f ||| g) r p f') : Quiet c k f r p f'
  | read {f r f' : BitVec w} {p : List (Acc w)} (h : Quiet c k f f p f') : Quiet c k f r (.read :: p) f'
  | write {f r f' : BitVec w} {e : BitVec w → BitVec w} {p : List (Acc w)} (h : Quiet c k (c.written f (e r)) r p f') : Quiet c k f r (.write e :: p) f'
  | event {f r f' : BitVec w} {i : Nat} {p : List (Acc w)} (h : Quiet c k (f &&& ~~~ BitVec.twoPow w i) r p f') : Quiet c k f r (.event i :: p) f'

theorem quiet_keeps {w : Nat} {c : Chip} {k : Nat} {f r f' : BitVec w} {p : List (Acc w)} (h : Quiet c k f r p f') (hf : f.getLsbD k = false) : f'.getLsbD k = false := by
  induction h with
  | done => exact hf
  | raise g hg h ih => exact ih (by simp [hf, hg])
  | read h ih => exact ih hf
  | write h ih => exact ih (by cases c <;> simp [Chip.written, hf])
  | event h ih => exact ih (by simp [hf])

theorem quiet_last {w : Nat} {c : Chip} {k : Nat} {f r f' : BitVec w} {a : Acc w} (ha : a = .event k ∨ ∃ e, a = .write e ∧ ∀ f, (c.written f (e r)).getLsbD k = false) (h : Quiet c k f r [a] f') : f'.getLsbD k = false := by
  generalize hq : [a] = q at h
  induction h with
  | done => cases hq
  | raise g hg h ih => exact ih ha hq
  | read h ih => cases hq; rcases ha with h | ⟨e, h, -⟩ <;> cases h
  | write h ih =>
    cases hq
    rcases ha with e | ⟨e, e1, e2⟩
    · cases e
    · cases e1; exact quiet_keeps h (e2 _)
  | event h ih =>
    cases hq
    rcases ha with e | ⟨e, e1, e2⟩
    · cases e; exact quiet_keeps h (by by_cases hw : k < w <;> simp [hw])
    · cases e1

theorem quiet_read {w : Nat} {c : Chip} {k : Nat} {f r f' : BitVec w} {p : List (Acc w)} (h : Quiet c k f r (.read :: p) f') : ∃ f1, Quiet c k f1 f1 p f' := by
  generalize hq : Acc.read :: p = q at h
  induction h with
  | done => cases hq
  | raise g hg h ih => exact ih hq
  | read h ih => cases hq; exact ⟨_, h⟩
  | write h ih => cases hq
  | event h ih => cases hq

/-- **C110** On all chips the flag itself is clear afterwards, unless the hardware has raised it again during the accesses. -/
theorem C110_cleared {w : Nat} {c : Chip} {k : Nat} (hk : k < w) {f r f' : BitVec w} (h : Quiet c k f r (c.code k) f') : f'.getLsbD k = false := by
  cases c with
  | stm32 => exact quiet_last (.inr ⟨_, rfl, fun f => by simp [Chip.written]⟩) h
  | imxrt => exact quiet_last (.inr ⟨_, rfl, fun f => by simp [Chip.written, hk]⟩) h
  | silabs => exact quiet_last (.inr ⟨_, rfl, fun f => by simp [Chip.written, hk]⟩) h
  | esp => exact quiet_last (.inr ⟨_, rfl, fun f => by simp [Chip.written, hk]⟩) h
  | nrf => exact quiet_last (.inl rfl) h
  | rp =>
    obtain ⟨f1, h1⟩ := quiet_read h
    exact quiet_last (.inr ⟨_, rfl, fun f => by simp [Chip.written, hk]⟩) h1

/-- STM32: overflow (bit 0) and half period (bit 1) are pending, the compare flag of delays (bit 2) is cleared -/
example : Run .stm32 (0b111#32) 0 (Chip.code 2 .stm32) (0b011#32) := .write (.done _ _)

/-- **C110** (violated) RP2040 and RP235x: `INTR` is read, modified and written back, and a one written clears: every other alarm flag that is set when the register is read is cleared as well. -/
theorem C110_rp_violated : ∃ f r f' : BitVec 4, f.getLsbD 1 = true ∧ Run .rp f r (Chip.code 0 .rp) f' ∧ f'.getLsbD 1 = false :=
  ⟨0b0011#4, 0, 0, rfl, .read (.write (.done _ _)), rfl⟩

end Verif.TimerStart.Ack
