import Verif.Ticks.Model

namespace Verif.Ticks

/-- The tick value a `w`-bit clock shows at true time `t`. -/
def tick (w t : Nat) : BitVec w := BitVec.ofNat w t

theorem two_pow_split {w : Nat} (hw : 0 < w) : 2 ^ w = 2 * 2 ^ (w - 1) := by
  obtain ⟨k, rfl⟩ : ∃ k, w = k + 1 := ⟨w - 1, by omega⟩
  simp [Nat.pow_succ, Nat.mul_comm]

theorem toInt_tick_sub {w : Nat} (a b : Nat) :
    (tick w a - tick w b).toInt = ((a : Int) - b).bmod (2 ^ w) := by
  have h : ∀ a : Nat, (BitVec.ofNat w a).toInt = (a : Int).bmod (2 ^ w) := by
    intro a; rw [BitVec.toInt_eq_toNat_bmod, BitVec.toNat_ofNat, Int.natCast_emod, Int.emod_bmod]
  simp only [tick, BitVec.toInt_sub, h, Int.sub_bmod_bmod, Int.bmod_sub_bmod]

theorem bmod_eq_of_bounds {x : Int} {m : Nat} (h1 : -(m : Int) ≤ x) (h2 : x < m) :
    x.bmod (2 * m) = x := by
  rw [Int.bmod_def]
  rcases Int.lt_or_le x 0 with hx | hx
  · have : x % ((2 * m : Nat) : Int) = x + 2 * m := by
      have h := @Int.add_mul_emod_self_right x 1 ((2 * m : Nat) : Int)
      rw [← h, Int.emod_eq_of_lt] <;> omega
    rw [this]; split <;> omega
  · rw [Int.emod_eq_of_lt hx (by omega)]
    split <;> omega

theorem toInt_tick_sub_of_bounds {w a b : Nat} (hw : 0 < w)
    (h1 : b ≤ a + 2 ^ (w - 1)) (h2 : a < b + 2 ^ (w - 1)) :
    (tick w a - tick w b).toInt = (a : Int) - b := by
  rw [toInt_tick_sub, two_pow_split hw]
  generalize 2 ^ (w - 1) = m at *
  apply bmod_eq_of_bounds <;> omega

theorem tick_add_pow (w b : Nat) : tick w (b + 2 ^ w) = tick w b := by
  apply BitVec.eq_of_toNat_eq; simp [tick]

theorem toInt_tick_sub_far {w a b : Nat} (hw : 0 < w)
    (h1 : b + 2 ^ (w - 1) ≤ a) (h2 : a < b + 2 ^ w) :
    (tick w a - tick w b).toInt = (a : Int) - b - (2 ^ w : Nat) := by
  have hs := two_pow_split hw
  rw [← tick_add_pow w b, toInt_tick_sub_of_bounds hw (by omega) (by omega)]
  omega

theorem int_compare_lt {a b : Int} : Ord.compare a b = .lt ↔ a < b := Int.compare_eq_lt
theorem int_compare_gt {a b : Int} : Ord.compare a b = .gt ↔ b < a := Int.compare_eq_gt

theorem isAtLeast_iff {w : Nat} (a b : BitVec w) : isAtLeast a b = true ↔ 0 ≤ (a - b).toInt := by
  unfold isAtLeast compare
  rcases Int.lt_trichotomy ((a - b).toInt) 0 with h | h | h
  · rw [int_compare_lt.2 h]; simp only [Bool.false_eq_true, false_iff]; omega
  · rw [h]; simp
  · rw [int_compare_gt.2 h]; simp only [true_iff]; omega

theorem compare_lt_iff {w : Nat} (a b : BitVec w) : compare a b = .lt ↔ (a - b).toInt < 0 := by
  unfold compare; exact int_compare_lt

theorem isAtLeast_false_iff {w : Nat} (a b : BitVec w) :
    isAtLeast a b = false ↔ compare a b = .lt := by
  rw [compare_lt_iff, ← Bool.not_eq_true, isAtLeast_iff]; omega

theorem deadline_tick {w : Nat} (t0 d : Nat) (hd : d < 2 ^ w) :
    deadline (tick w t0) (tick w d) = tick w (t0 + d + if d = 0 then 0 else 1) := by
  unfold deadline wrappingAdd oneTick
  have h : tick w t0 + tick w d = tick w (t0 + d) := by simp [tick, BitVec.ofNat_add]
  simp only [h]
  split
  · rename_i hne
    have : d ≠ 0 := by rintro rfl; exact hne rfl
    simp [this, tick, BitVec.ofNat_add]
  · rename_i heq
    have heq : tick w t0 = tick w (t0 + d) := Decidable.not_not.1 heq
    have h0 : d = 0 := by
      have h2 : tick w d = 0#w := by
        have := h; rw [← heq] at this
        simpa using this
      have := congrArg BitVec.toNat h2
      simpa [tick, Nat.mod_eq_of_lt hd] using this
    subst h0; simp

end Verif.Ticks
