import Verif.Backends.Start

/-!
# C109: SysTick ticks at the requested rate from the start
-/

namespace Verif.TimerStart.Systick

/-- The SysTick timer (Armv7-M ARM, B3.3): a 24-bit counter that counts down to zero, then reloads. -/
structure Hw where
  /-- `CSR.ENABLE` -/
  en : Bool
  /-- `CSR.TICKINT` -/
  ie : Bool
  /-- `CSR.CLKSOURCE` -/
  src : Bool
  /-- `CSR.COUNTFLAG`: cleared by reading `CSR` -/
  flag : Bool
  /-- current value, `CVR` (unknown after a reset) -/
  val : Nat
  /-- reload value, `RVR` -/
  rvr : Nat
  /-- history: how often the counter has reached zero since it was last enabled -/
  wraps : Nat
deriving DecidableEq, Repr

/-- One cycle of the SysTick clock: the counter goes down; the flag is set (and the interrupt raised) when it goes from 1 to 0; it is reloaded in the cycle after that. -/
def cycle (s : Hw) : Hw :=
  if s.en then
    if s.val = 0 then { s with val := s.rvr }
    else if s.val = 1 then { s with val := 0, flag := true, wraps := s.wraps + 1 }
    else { s with val := s.val - 1 }
  else s

/-- An access of `_start`; `csr.modify` of the `cortex-m` crate is a read followed by a write of what was read with one field changed. -/
inductive Op where
  | readCsr
  | setEnable (b : Bool)
  | setSource (b : Bool)
  | setReload (v : Nat)
  | setIrq
deriving DecidableEq, Repr

def Op.app (s : Hw) : Op → Hw
  | .readCsr => { s with flag := false }
  | .setEnable b => { s with en := b, wraps := if b then 0 else s.wraps }
  | .setSource b => { s with src := b }
  | .setReload v => { s with rvr := v }
  | .setIrq => { s with ie := true }

/-- `SystickBackend::_start`, `rtic-monotonics/src/systick.rs:95-112`: `disable_counter`, `set_clock_source`, `set_reload`, `enable_interrupt`, `enable_counter`
(the reload value: `Backends.systickReload`, C65). The initialisation of the queue is left out. -/
def start (reload : Nat) (src : Bool) : List Op :=
  [.readCsr, .setEnable false, .readCsr, .setSource src, .setReload reload, .readCsr, .setIrq, .readCsr, .setEnable true]

/-- An execution: the clock of the timer may advance between any two accesses. -/
inductive Run : Hw → List Op → Hw → Prop where
  | done (s : Hw) : Run s [] s
  | cycle {s s' : Hw} {p : List Op} (h : Run (cycle s) p s') : Run s p s'
  | op {s s' : Hw} {o : Op} {p : List Op} (h : Run (o.app s) p s') : Run s (o :: p) s'

/-- `n` cycles -/
def cycles : Nat → Hw → Hw
  | 0, s => s
  | n + 1, s => cycles n (cycle s)

/-- Just after the last access of `_start`: the state in which the counter was enabled, `k` cycles ago. -/
def Started (reload : Nat) (src : Bool) (s s' : Hw) : Prop := Run s (start reload src) s'

/-! ## The first tick -/

/-- cycles until the next tick -/
def next (s : Hw) : Nat := if s.val = 0 then s.rvr + 1 else s.val

theorem next_pos (s : Hw) : 0 < next s := by simp only [next]; split <;> omega

theorem cycles_wraps : ∀ (n : Nat) (s : Hw), s.en = true → 0 < s.rvr →
    (cycles n s).wraps = s.wraps + (if n < next s then 0 else (n - next s) / (s.rvr + 1) + 1)
  | 0, s, _, _ => by simp [cycles, next_pos s]
  | n + 1, s, he, hr => by
    have h2 : (cycle s).en = true ∧ (cycle s).rvr = s.rvr := by simp only [cycle, he, if_true]; (repeat' split) <;> exact ⟨rfl, rfl⟩
    rw [cycles, cycles_wraps n (cycle s) h2.1 (by rw [h2.2]; exact hr), h2.2]
    by_cases h0 : s.val = 0
    · have e : next (cycle s) = s.rvr ∧ (cycle s).wraps = s.wraps := by simp only [next, cycle, he, if_true, h0]; exact ⟨by rw [if_neg (by omega)], trivial⟩
      have e2 : next s = s.rvr + 1 := by simp [next, h0]
      rw [e.1, e.2, e2]
      split <;> split <;> first | omega | (congr 2; congr 1; omega)
    · by_cases h1 : s.val = 1
      · have e : next (cycle s) = s.rvr + 1 ∧ (cycle s).wraps = s.wraps + 1 := by simp [next, cycle, he, h1]
        have e2 : next s = 1 := by simp [next, h1]
        rw [e.1, e.2, e2, if_neg (show ¬ n + 1 < 1 by omega)]
        split
        · rw [Nat.add_sub_cancel, Nat.div_eq_of_lt (by assumption)]
        · rw [Nat.add_sub_cancel]
          have : n / (s.rvr + 1) = (n - (s.rvr + 1)) / (s.rvr + 1) + 1 := by rw [← Nat.sub_add_cancel (show s.rvr + 1 ≤ n by omega)]; simp
          omega
      · have e : next (cycle s) = s.val - 1 ∧ (cycle s).wraps = s.wraps := by simp only [next, cycle, he, if_true, h0, h1, if_false]; exact ⟨by rw [if_neg (by omega)], trivial⟩
        have e2 : next s = s.val := by simp [next, h0]
        rw [e.1, e.2, e2]
        split <;> split <;> first | omega | (congr 2; congr 1; omega)

theorem run_cons {I J : Hw → Prop} (ht : ∀ s, I s → I (cycle s)) {o : Op} (hj : ∀ s, I s → J (o.app s)) {p : List Op} {s s' : Hw} (h : Run s (o :: p) s') (hi : I s) :
    ∃ s1, J s1 ∧ Run s1 p s' := by
  generalize hq : o :: p = q at h
  induction h with
  | done s => cases hq
  | cycle h ih => exact ih (ht _ hi) hq
  | op h ih => cases hq; exact ⟨_, hj _ hi, h⟩

theorem run_stopped {o : Op} {p : List Op} {s s' : Hw} (h : Run s (o :: p) s') (hi : s.en = false) : Run (o.app s) p s' := by
  obtain ⟨s1, rfl, h1⟩ := run_cons (I := (· = s)) (J := (· = o.app s)) (by rintro _ rfl; simp [cycle, hi]) (by rintro _ rfl; rfl) h rfl
  exact h1

theorem run_nil {s s' : Hw} (h : Run s [] s') : ∃ n, s' = cycles n s := by
  generalize hq : ([] : List Op) = q at h
  induction h with
  | done s => exact ⟨0, rfl⟩
  | cycle h ih => obtain ⟨n, e⟩ := ih hq; exact ⟨n + 1, e⟩
  | op h ih => cases hq

/-- **C109** Whatever SysTick did before (running or not, flag pending, any values) and however it counts between the accesses: the start function leaves it enabled, its interrupt enabled, with the requested reload value and clock source; a pending count flag of
earlier use is gone. -/
theorem C109_started {reload : Nat} {src : Bool} {s s' : Hw} (h : Started reload src s s') :
    ∃ v n, s' = cycles n { en := true, ie := true, src := src, flag := false, val := v, rvr := reload, wraps := 0 } := by
  obtain ⟨s1, -, h⟩ := run_cons (o := .readCsr) (I := fun _ => True) (J := fun _ => True) (fun _ _ => trivial) (fun _ _ => trivial) h trivial
  obtain ⟨s2, he, h⟩ := run_cons (o := .setEnable false) (I := fun _ => True) (J := fun s => s.en = false) (fun _ _ => trivial) (fun _ _ => rfl) h trivial
  replace h := run_stopped h he
  replace h := run_stopped h he
  replace h := run_stopped h he
  replace h := run_stopped h he
  replace h := run_stopped h he
  replace h := run_stopped h he
  replace h := run_stopped h he
  obtain ⟨n, e⟩ := run_nil h
  exact ⟨s2.val, n, e⟩

/-- **C109** From there on the ticks come exactly every `reload + 1` cycles: the number of ticks after `n` cycles is none before the first tick, and then one more every `reload + 1` cycles. -/
theorem C109_rate {reload v : Nat} {src : Bool} (hr : 0 < reload) (n : Nat) :
    let s0 : Hw := { en := true, ie := true, src := src, flag := false, val := v, rvr := reload, wraps := 0 }
    let first := if v = 0 then reload + 1 else v
    (cycles n s0).wraps = if n < first then 0 else (n - first) / (reload + 1) + 1 := by
  have := cycles_wraps n { en := true, ie := true, src := src, flag := false, val := v, rvr := reload, wraps := 0 } rfl hr
  simpa [next] using this

/-- **C109** (partial) If the current value is at most the reload value plus one when the monotonic is started (for instance zero, or SysTick had the same or a smaller reload value before), the clock is never more than one tick behind:
after `n` cycles at least `n / (reload + 1)` ticks have come, and never more than one in excess. -/
theorem C109_first_tick_partial {reload v : Nat} {src : Bool} (hr : 0 < reload) (hv : v ≤ reload + 1) (n : Nat) :
    let s0 : Hw := { en := true, ie := true, src := src, flag := false, val := v, rvr := reload, wraps := 0 }
    n / (reload + 1) ≤ (cycles n s0).wraps ∧ (cycles n s0).wraps ≤ n / (reload + 1) + 1 := by
  simp only [C109_rate hr]
  generalize hf : (if v = 0 then reload + 1 else v) = f
  have hf1 : f ≤ reload + 1 := by subst hf; split <;> omega
  have hf2 : 0 < f := by subst hf; split <;> omega
  split
  · rw [Nat.div_eq_of_lt (by omega)]; omega
  · have h1 : (n - f) / (reload + 1) ≤ n / (reload + 1) := Nat.div_le_div_right (by omega)
    have h2 : n / (reload + 1) ≤ (n - f + (reload + 1)) / (reload + 1) := Nat.div_le_div_right (by omega)
    rw [Nat.add_div_right _ (by omega)] at h2
    omega

example : ∃ s', Started 99 true { en := true, ie := false, src := false, flag := true, val := 1, rvr := 4, wraps := 0 } s' ∧ s'.wraps = 0 ∧ s'.flag = false ∧ s'.val = 98 :=
  ⟨_, .cycle (.op (.op (.op (.op (.op (.op (.op (.op (.op (.cycle (.cycle (.done _)))))))))))), by decide⟩

/-- **C109** (violated) The start function does not clear the current value, which may be anything after a reset: with the value `0xFF_FFFF` the first tick comes after 16777215 cycles (one second at 16 MHz), although the tick period is 100 cycles;
until then time stands still. -/
theorem C109_first_tick_violated : ∃ s s', s.en = false ∧ s.val < 2 ^ 24 ∧ Started 99 true s s' ∧ ∀ n, n < 16777215 → (cycles n s').wraps = 0 := by
  refine ⟨{ en := false, ie := false, src := false, flag := false, val := 0xFFFFFF, rvr := 0, wraps := 0 }, _, rfl, by decide, .op (.op (.op (.op (.op (.op (.op (.op (.op (.done _))))))))), fun n hn => ?_⟩
  have := C109_rate (reload := 99) (v := 0xFFFFFF) (src := true) (by decide) n
  simp only at this
  have e : (if 0xFFFFFF = 0 then 99 + 1 else 0xFFFFFF) = 16777215 := by decide
  rw [e, if_pos hn] at this
  exact this

end Verif.TimerStart.Systick
