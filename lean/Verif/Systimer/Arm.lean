import Verif.Systimer.Model

/-!
# C116: arming the SYSTIMER of the ESP32-C3/C6

Model of `TimerBackend::set_compare`, `rtic-monotonics/src/esp32c3.rs:95-115`, `esp32c6.rs:96-116` (same code), and of the accesses of `_start` to the timer, `esp32c3.rs:70-73`, `esp32c6.rs:70-73`.

All accesses are `write`s of the peripheral access crate, which start from the reset value of the register, not from its current value (`svd2rust`). The reset values and the positions of the fields are
those of the peripheral access crate and the reference manual, which are not in this repository: the reset values are parameters (`Reset`), the positions are those of the manual of the C3 (SYSTIMER_CONF, SYSTIMER_TARGET0_CONF).
The hardware compares with the value that was loaded by the last write to `COMP0_LOAD`. Fields that the code does not touch are not modelled, apart from being reset.
-/

namespace Verif.Systimer.Arm

/-- `CONF.TIMER_UNIT0_WORK_EN`: unit 0, the counter that `now` reads (`unit0_op`, `unit_value(0)`), counts -/
abbrev unit0WorkEn : Nat := 30
/-- `CONF.TIMER_UNIT1_CORE0_STALL_EN` -/
abbrev unit1Core0StallEn : Nat := 26
/-- `CONF.TARGET0_WORK_EN`: comparator 0 works -/
abbrev target0WorkEn : Nat := 24
/-- `TARGET0_CONF.TIMER_UNIT_SEL`: comparator 0 looks at unit 1 instead of unit 0 -/
abbrev unitSel : Nat := 31
/-- `TARGET0_CONF.PERIOD_MODE`: the comparator fires periodically instead of once -/
abbrev periodMode : Nat := 30

/-- Reset values -/
structure Reset where
  conf : BitVec 32
  target0Conf : BitVec 32
  intEna : BitVec 32

structure Regs where
  conf : BitVec 32
  target0Conf : BitVec 32
  trgtLo : BitVec 32
  /-- 20 bits -/
  trgtHi : BitVec 20
  /-- what comparator 0 compares the counter with: 52 bits -/
  comp0 : BitVec 52
  intEna : BitVec 32
deriving DecidableEq

inductive Op where
  /-- `conf().write(|w| w.F().set_bit())`, `clear_bit()` -/
  | conf (bit : Nat) (on : Bool)
  | target0Conf (bit : Nat) (on : Bool)
  | trgtLo (v : BitVec 32)
  | trgtHi (v : BitVec 32)
  /-- `comp0_load().write(|w| w.load().set_bit())` -/
  | load
  /-- `int_ena().write(|w| w.target0().set_bit())` -/
  | intEna
deriving DecidableEq

/-- `write` with one field of one bit changed -/
def writeBit (reset : BitVec 32) (bit : Nat) (on : Bool) : BitVec 32 := if on then reset ||| BitVec.twoPow 32 bit else reset &&& ~~~(BitVec.twoPow 32 bit)

def Op.app (R : Reset) (s : Regs) : Op → Regs
  | .conf b on => { s with conf := writeBit R.conf b on }
  | .target0Conf b on => { s with target0Conf := writeBit R.target0Conf b on }
  | .trgtLo v => { s with trgtLo := v }
  | .trgtHi v => { s with trgtHi := v.setWidth 20 }
  | .load => { s with comp0 := s.trgtHi ++ s.trgtLo }
  | .intEna => { s with intEna := writeBit R.intEna 0 true }

def run (R : Reset) (s : Regs) (l : List Op) : Regs := l.foldl (Op.app R) s

/-- `_start`, `esp32c3.rs:70-73` -/
def startOps : List Op := [.conf unit0WorkEn true, .conf unit1Core0StallEn false]

/-- `try_into().unwrap()` from `u64` to `u32`; `none`: panic -/
def toU32 (x : BitVec 64) : Option (BitVec 32) := if x.toNat < 2 ^ 32 then some (x.setWidth 32) else none

/-- `set_compare`, `esp32c3.rs:95-115`; `none`: panic -/
def setCompare (t : BitVec 64) : Option (List Op) := do
  let lo ← toU32 (t &&& 0xFFFFFFFF#64)
  let hi ← toU32 (t >>> 32)
  pure [.target0Conf unitSel true, .target0Conf periodMode false, .trgtLo lo, .trgtHi hi, .load, .conf target0WorkEn true, .intEna]

/-! ## Specification -/

/-- unit 0, which `now` reads, counts -/
def Counting (s : Regs) : Prop := s.conf.getLsbD 30 = true

/-- Comparator 0 works, looks at unit 0, once, for the 52-bit value `v`, and its interrupt is enabled. -/
def ArmedFor (s : Regs) (v : BitVec 52) : Prop :=
  s.conf.getLsbD 24 = true ∧ s.target0Conf.getLsbD 31 = false ∧ s.target0Conf.getLsbD 30 = false ∧ s.comp0 = v ∧ s.intEna.getLsbD 0 = true

/-- What the code relies on: after a reset unit 0 counts, and comparator 0 looks at unit 0. -/
structure Reset.Suits (R : Reset) : Prop where
  unit0 : R.conf.getLsbD 30 = true
  sel : R.target0Conf.getLsbD 31 = false

/-! ## Proofs -/

theorem setCompare_eq (t : BitVec 64) : setCompare t =
    some [.target0Conf unitSel true, .target0Conf periodMode false, .trgtLo (t.setWidth 32), .trgtHi ((t >>> 32).setWidth 32), .load, .conf target0WorkEn true, .intEna] := by
  have h1 : (t &&& 0xFFFFFFFF#64).toNat < 2 ^ 32 := by
    rw [BitVec.toNat_and]
    exact Nat.lt_of_le_of_lt Nat.and_le_right (by decide)
  have h2 : (t >>> 32).toNat < 2 ^ 32 := by
    rw [BitVec.toNat_ushiftRight, Nat.shiftRight_eq_div_pow]
    have := t.isLt; omega
  have h3 : (t &&& 0xFFFFFFFF#64).setWidth 32 = t.setWidth 32 := by
    apply BitVec.eq_of_toNat_eq
    rw [BitVec.toNat_setWidth, BitVec.toNat_setWidth, BitVec.toNat_and, show (0xFFFFFFFF#64).toNat = 2 ^ 32 - 1 from rfl, Nat.and_two_pow_sub_one_eq_mod]
    omega
  simp only [setCompare, toU32, if_pos h1, if_pos h2, h3]; rfl

theorem value_eq (t : BitVec 64) : ((t >>> 32).setWidth 32).setWidth 20 ++ t.setWidth 32 = t.setWidth 52 := by
  apply BitVec.eq_of_toNat_eq
  rw [BitVec.toNat_append, BitVec.toNat_setWidth, BitVec.toNat_setWidth, BitVec.toNat_setWidth, BitVec.toNat_setWidth, BitVec.toNat_ushiftRight, Nat.shiftRight_eq_div_pow,
    ← Nat.shiftLeft_add_eq_or_of_lt (Nat.mod_lt _ (by decide)), Nat.shiftLeft_eq]
  omega

theorem writeBit_get (r : BitVec 32) (b : Nat) (on : Bool) (j : Nat) (hj : j < 32) : (writeBit r b on).getLsbD j = if j = b then on else r.getLsbD j := by
  simp only [writeBit]
  cases on <;> simp [BitVec.getLsbD_twoPow] <;> grind

/-- **C116** `set_compare` does not panic, whatever the instant. -/
theorem C116_no_panic (t : BitVec 64) : ∃ l, setCompare t = some l := ⟨_, setCompare_eq t⟩

/-- **C116** After `set_compare(t)`, in whatever state the timer was: the counter that `now` reads counts, and the comparator is armed for `t` (52 bits, like the counter), once, on that counter, with its interrupt enabled. -/
theorem C116_armed {R : Reset} (hR : R.Suits) (s : Regs) {t : BitVec 64} {l : List Op} (hl : setCompare t = some l) :
    ArmedFor (run R s l) (t.setWidth 52) ∧ Counting (run R s l) := by
  rw [setCompare_eq] at hl
  cases hl
  refine ⟨⟨?_, ?_, ?_, ?_, ?_⟩, ?_⟩ <;> simp only [run, List.foldl, Op.app, Counting]
  · rw [writeBit_get _ _ _ _ (by decide)]; rfl
  · rw [writeBit_get _ _ _ _ (by decide)]; simpa [periodMode] using hR.sel
  · rw [writeBit_get _ _ _ _ (by decide)]; rfl
  · exact value_eq t
  · rw [writeBit_get _ _ _ _ (by decide)]; rfl
  · rw [writeBit_get _ _ _ _ (by decide)]; simpa [target0WorkEn] using hR.unit0

/-- **C116** At every point in between (interrupted after any number of accesses), the counter goes on counting if it did, and the comparator compares with the old instant or with the new one, never with a mixture of the two. -/
theorem C116_never_mixed {R : Reset} (hR : R.Suits) (s : Regs) {t : BitVec 64} {l l1 l2 : List Op} (hl : setCompare t = some l) (hsplit : l = l1 ++ l2) :
    (Counting s → Counting (run R s l1)) ∧ ((run R s l1).comp0 = s.comp0 ∨ (run R s l1).comp0 = t.setWidth 52) := by
  rw [setCompare_eq] at hl
  cases hl
  have hc : Counting { s with conf := writeBit R.conf target0WorkEn true } := by
    simp only [Counting]; rw [writeBit_get _ _ _ _ (by decide)]; simpa [target0WorkEn] using hR.unit0
  have hv := value_eq t
  match l1, hsplit with
  | [], _ => exact ⟨id, .inl rfl⟩
  | [a], h => obtain ⟨rfl, -⟩ : _ = a ∧ _ := by simpa using h
              exact ⟨id, .inl rfl⟩
  | [a, b], h => obtain ⟨rfl, rfl, -⟩ : _ = a ∧ _ = b ∧ _ := by simpa using h
                 exact ⟨id, .inl rfl⟩
  | [a, b, c], h => obtain ⟨rfl, rfl, rfl, -⟩ : _ = a ∧ _ = b ∧ _ = c ∧ _ := by simpa using h
                    exact ⟨id, .inl rfl⟩
  | [a, b, c, d], h => obtain ⟨rfl, rfl, rfl, rfl, -⟩ : _ = a ∧ _ = b ∧ _ = c ∧ _ = d ∧ _ := by simpa using h
                       exact ⟨id, .inl rfl⟩
  | [a, b, c, d, e], h => obtain ⟨rfl, rfl, rfl, rfl, rfl, -⟩ : _ = a ∧ _ = b ∧ _ = c ∧ _ = d ∧ _ = e ∧ _ := by simpa using h
                          exact ⟨id, .inr hv⟩
  | [a, b, c, d, e, f], h => obtain ⟨rfl, rfl, rfl, rfl, rfl, rfl, -⟩ : _ = a ∧ _ = b ∧ _ = c ∧ _ = d ∧ _ = e ∧ _ = f ∧ _ := by simpa using h
                             exact ⟨fun _ => hc, .inr hv⟩
  | [a, b, c, d, e, f, g], h => obtain ⟨rfl, rfl, rfl, rfl, rfl, rfl, rfl, -⟩ : _ = a ∧ _ = b ∧ _ = c ∧ _ = d ∧ _ = e ∧ _ = f ∧ _ = g ∧ _ := by simpa using h
                                exact ⟨fun _ => hc, .inr hv⟩
  | a :: b :: c :: d :: e :: f :: g :: x :: l1, h => simp at h

/-- **C116** After `start` the counter counts, and `set_compare` leaves it so. -/
theorem C116_started {R : Reset} (hR : R.Suits) (s : Regs) : Counting (run R s startOps) := by
  simp only [startOps, run, List.foldl, Op.app, Counting]
  rw [writeBit_get _ _ _ _ (by decide)]
  simpa [unit1Core0StallEn] using hR.unit0

/-- The reset values matter: every write starts from them. On a chip whose counter is off after a reset, `start` would leave it off (the second write takes the first one back); on one whose comparator looks at unit 1, `set_compare` would arm for the wrong counter. -/
theorem C116_reset_values_matter :
    (∀ (R : Reset) (s : Regs), R.conf.getLsbD 30 = false → ¬ Counting (run R s startOps)) ∧
    ∀ (R : Reset) (s : Regs) (t : BitVec 64) (l : List Op) (v : BitVec 52), R.target0Conf.getLsbD 31 = true → setCompare t = some l → ¬ ArmedFor (run R s l) v := by
  constructor
  · intro R s h hc
    simp only [startOps, run, List.foldl, Op.app, Counting] at hc
    rw [writeBit_get _ _ _ _ (by decide)] at hc
    rw [if_neg (by decide), h] at hc; cases hc
  · intro R s t l v h hl ha
    rw [setCompare_eq] at hl
    cases hl
    have := ha.2.1
    simp only [run, List.foldl, Op.app] at this
    rw [writeBit_get _ _ _ _ (by decide)] at this
    rw [if_neg (by decide), h] at this; cases this

/-- The reset values of the ESP32-C3 suit: SYSTIMER_CONF 0x46000000, SYSTIMER_TARGET0_CONF 0. -/
def c3Reset : Reset := { conf := 0x46000000#32, target0Conf := 0#32, intEna := 0#32 }

example : c3Reset.Suits := ⟨by decide, by decide⟩

/-- From a state armed periodically on the other unit for another instant. -/
example : ∃ l, setCompare 0x123456789A#64 = some l ∧
    run c3Reset { conf := 0#32, target0Conf := 0xC0000007#32, trgtLo := 5#32, trgtHi := 6#20, comp0 := 7#52, intEna := 6#32 } l =
      { conf := 0x47000000#32, target0Conf := 0#32, trgtLo := 0x3456789A#32, trgtHi := 0x12#20, comp0 := 0x123456789A#52, intEna := 1#32 } := ⟨_, rfl, by decide⟩

end Verif.Systimer.Arm
