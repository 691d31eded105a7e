import Verif.Storage.Model

/-!
# C88: every task has storage that fits its future
-/

namespace Verif.Storage

/-! ## Specification -/

/-- The executor of type `e` at address `a` lies properly aligned within the `size` bytes at `addr`, and so does the future (layout `fut`) within it; writing the future does not touch the flags. -/
structure Fits (e : ExecTy) (fut : Layout) (addr size a : Nat) : Prop where
  aligned : e.layout.align ∣ a
  inside : addr ≤ a ∧ a + e.layout.size ≤ addr + size
  future : fut.align ∣ a + e.task
  futureInside : addr ≤ a + e.task ∧ a + e.task + fut.size ≤ addr + size
  flags : ∀ i < fut.size, a + e.task + i ≠ a + e.running ∧ a + e.task + i ≠ a + e.pending

/-! ## Proofs -/

theorem roundUp_mul {n a : Nat} (ha : 0 < a) (h : a ∣ n) : roundUp n a = n := by
  obtain ⟨k, rfl⟩ := h
  unfold roundUp
  have : (a * k + a - 1) / a = k := by
    apply Nat.div_eq_of_lt_le
    · rw [Nat.mul_comm]; omega
    · rw [Nat.add_mul, Nat.mul_comm]; omega
  rw [this, Nat.mul_comm]

theorem mem_aligns {k : Nat} : 2 ^ k ∈ aligns ↔ k ≤ 14 := by
  constructor
  · intro h
    rcases Nat.lt_or_ge 14 k with h' | h'
    · have : 2 ^ 15 ≤ 2 ^ k := Nat.pow_le_pow_right (by omega) h'
      have hle : ∀ x ∈ aligns, x ≤ 16384 := by decide
      have := hle _ h
      omega
    · exact h'
  · intro h
    have : ∀ k ≤ 14, 2 ^ k ∈ aligns := by decide
    exact this k h

theorem pow_le_iff {k : Nat} : 2 ^ k ≤ 16384 ↔ k ≤ 14 := by
  rw [show 16384 = 2 ^ 14 from rfl]
  exact Nat.pow_le_pow_iff_right (by omega)

theorem holder_eq {size align : Nat} (h : (Layout.mk size align).Valid) : holder size align = if align ≤ 16384 then some (⟨size, align⟩, [0, size]) else none := by
  obtain ⟨⟨k, hk⟩, hm⟩ := h
  simp only at hk hm
  subst hk
  have hpos : 0 < 2 ^ k := Nat.two_pow_pos k
  unfold holder alignTy
  simp only [mem_aligns, pow_le_iff]
  split
  · simp only [Option.map_some, reprC, reprCFrom, array, byte, Nat.one_mul, Nat.zero_mul, Nat.add_zero, Nat.max_self]
    have e0 : roundUp 0 1 = 0 := rfl
    rw [e0, Nat.zero_add, Nat.max_eq_right hpos, roundUp_mul hpos hm, roundUp_mul hpos hm]
  · rfl

/-- **C88** A task's executor gets a static if and only if the task has at most 15 inputs and its executor needs an alignment of at most 16384; nothing else can make the declaration fail, whatever the size of the future and the layout chosen by the compiler. -/
theorem C88_declared_iff {inputs : Nat} {e : ExecTy} {fut : Layout} (he : e.Valid fut) : (executorDecl inputs e).isSome = true ↔ inputs ≤ 15 ∧ e.layout.align ≤ 16384 := by
  unfold executorDecl hasExecFn
  rw [holder_eq he.layout]
  by_cases h1 : inputs + 1 ≤ 16 <;> by_cases h2 : e.layout.align ≤ 16384 <;> simp [h1, h2] <;> omega

/-- **C88** Wherever the linker places the static of a task (respecting its alignment): the reference that spawn, waker and dispatcher get is to an executor within this static, properly aligned, as is its future; writing a future touches neither of the flags; the static is not larger than the executor; and initially
both flags read as `false`. -/
theorem C88_storage_fits {inputs : Nat} {e : ExecTy} {fut : Layout} (he : e.Valid fut) {st : Static} (hst : executorDecl inputs e = some st) {addr : Nat} {mem : Nat → Option UInt8} (hp : Placed st addr mem) :
    ∃ a, execFromHolder e.layout.size e.layout.align e st addr = some a ∧ Fits e fut addr st.layout.size a ∧ st.layout = e.layout ∧ mem (a + e.running) = some 0 ∧ mem (a + e.pending) = some 0 := by
  unfold executorDecl at hst
  rw [holder_eq he.layout] at hst
  have key : st = { layout := e.layout, data := 0, image := newImage e } := by
    split at hst
    · split at hst
      next l offs heq =>
        split at heq
        · cases heq; simp only [if_true, List.headD_cons] at hst; cases hst; rfl
        · cases heq
      · cases hst
    · cases hst
  subst key
  obtain ⟨ha, hb⟩ := hp
  simp only at ha hb
  refine ⟨addr, ?_, ⟨ha, ⟨Nat.le_refl _, Nat.le_refl _⟩, ?_, ?_, ?_⟩, rfl, ?_, ?_⟩
  · simp [execFromHolder]
  · exact (Nat.dvd_add_right (Nat.dvd_trans he.align ha)).mpr he.aligned
  · have := he.fits; show _ ∧ _ ≤ addr + e.layout.size; omega
  · intro i hi
    have h1 := he.rdis
    have h2 := he.pdis
    omega
  · rw [hb _ he.rfits]; simp [newImage]
  · rw [hb _ he.pfits]; simp [newImage]

/-- A function whose executor has another size or alignment than the static was declared with does not get a reference into it: the assertions of `exec_from_holder` fail. -/
theorem other_layout_refused {size align : Nat} {e : ExecTy} {st : Static} {addr : Nat} : execFromHolder size align e st addr = none ↔ size ≠ e.layout.size ∨ align ≠ e.layout.align := by
  unfold execFromHolder
  by_cases h1 : size = e.layout.size <;> by_cases h2 : align = e.layout.align <;> simp [h1, h2]

/-- a future of 24 bytes, aligned to 8, with the flags behind it (32 bytes in total) -/
def demoFut : Layout := ⟨24, 8⟩
def demoExec : ExecTy := ⟨⟨32, 8⟩, 0, 24, 25⟩

example : demoExec.Valid demoFut ∧ ∃ st, executorDecl 3 demoExec = some st ∧ Placed st 4096 (fun x => if 4096 ≤ x then newImage demoExec (x - 4096) else none) := by
  refine ⟨⟨⟨⟨3, rfl⟩, by decide⟩, by decide, by decide, by decide, by decide, by decide, by decide, by decide, by decide⟩, _, rfl, by decide, ?_⟩
  intro i hi
  show (if 4096 ≤ 4096 + i then newImage demoExec (4096 + i - 4096) else none) = newImage demoExec i
  rw [if_pos (by omega), Nat.add_sub_cancel_left]

/-- the limits are real: 16 inputs, or an alignment of 32768 -/
example : executorDecl 16 demoExec = none ∧ executorDecl 0 ⟨⟨32768, 32768⟩, 0, 8, 9⟩ = none := by decide

end Verif.Storage
