import Verif.Backends.Spec

/-!
# C33, C34, C35, C55, C57
-/

namespace Verif.Backends

theorem width_le (bk : Backend) : bk.width ≤ 32 := by
  cases bk <;> simp [Backend.width] <;> split <;> omega

theorem width_ge (bk : Backend) : 16 ≤ bk.width := by
  cases bk <;> simp [Backend.width] <;> split <;> omega

theorem sub_toNat {i tn : Nat} (h : tn ≤ i) (h2 : i < tn + 2 ^ 64) :
    (BitVec.ofNat 64 i - BitVec.ofNat 64 tn).toNat = i - tn := by
  rw [BitVec.toNat_sub, BitVec.toNat_ofNat, BitVec.toNat_ofNat]
  omega

theorem mod_mod_pow (i : Nat) {b : Nat} (hb : b ≤ 64) : (BitVec.ofNat 64 i).toNat % 2 ^ b = i % 2 ^ b := by
  rw [BitVec.toNat_ofNat]
  exact Nat.mod_mod_of_dvd _ (Nat.pow_dvd_pow 2 hb)

/-- there is a multiple of `p` in every window of length `p` -/
theorem exists_multiple (t p : Nat) (hp : 0 < p) : ∃ u, t < u ∧ u ≤ t + p ∧ u % p = 0 := by
  refine ⟨(t / p + 1) * p, ?_, ?_, by simp⟩
  · have := Nat.div_add_mod t p
    have h2 := Nat.mod_lt t hp
    rw [Nat.add_mul, Nat.mul_comm]; omega
  · have := Nat.div_add_mod t p
    rw [Nat.add_mul, Nat.mul_comm]; omega

theorem mod_ne_between {p i u : Nat} (hu : u < i) (h : i < u + p) : u % p ≠ i % p := by
  intro he
  have h1 := Nat.sub_mod_eq_zero_of_mod_eq he.symm
  rw [Nat.mod_eq_of_lt (by omega)] at h1
  omega

theorem written_near {bk : Backend} {i tn : Nat} (h : tn ≤ i) (hw : i < tn + 2 ^ bk.width)
    (hn : bk = .nrfRtc → tn + 3 ≤ i) : written bk i tn = i % 2 ^ bk.width := by
  have h32 := width_le bk
  have hp : 2 ^ bk.width ≤ 2 ^ 32 := Nat.pow_le_pow_right (by omega) h32
  have hs := sub_toNat h (show i < tn + 2 ^ 64 by omega)
  cases bk with
  | nrfRtc =>
    have := hn rfl
    simp only [written, Backend.compareValue, rtcCompare, hs]
    simp only [Backend.width] at hw ⊢
    rw [if_pos (by omega), if_neg (by omega), mod_mod_pow i (by omega)]
  | nrfTimer => simp only [written, Backend.compareValue, truncCompare]; rw [mod_mod_pow i (by omega)]
  | imxrt => simp only [written, Backend.compareValue, truncCompare]; rw [mod_mod_pow i (by omega)]
  | stm32 wide | silabsTimer wide | silabsRtcc | rp =>
    simp only [written, Backend.compareValue, checkedCompare, hs]
    rw [if_pos (by omega), mod_mod_pow i (by omega)]

/-- **C33** (within one timer period) If the instant `i` is less than one period after the clock value read by `set_compare`, and the register is written
(time `tw`) before the instant, the compare interrupt comes at `i` and not earlier. (nRF RTC: for instants at least three ticks away.) All register widths, all times, including
across the wrap of the 64-bit tick value. -/
theorem C33_exact_in_window (bk : Backend) {i tn tw : Nat} (h1 : tn ≤ tw) (h2 : tw < i)
    (hw : i < tn + 2 ^ bk.width) (hn : bk = .nrfRtc → tw = tn ∧ tn + 3 ≤ i) :
    CompareMatch bk tw (written bk i tn) i ∧ ∀ u, CompareMatch bk tw (written bk i tn) u → i ≤ u := by
  rw [written_near (by omega) hw (fun h => (hn h).2)]
  constructor
  · refine ⟨?_, rfl⟩
    cases bk <;> simp only [Backend.deaf] <;> first | omega | (have := hn rfl; omega)
  · intro u hu
    rcases Nat.lt_or_ge u i with h | h
    · exact absurd hu.2 (mod_ne_between h (by have := hu.1; omega))
    · exact h

-- 16-bit timer, instant beyond the wrap of the counter
example : written (.stm32 false) 70000 65000 = 4464 ∧ CompareMatch (.stm32 false) 65001 4464 70000 := by
  refine ⟨by decide, ?_, ?_⟩ <;> decide

theorem written_far {bk : Backend} {i tn : Nat} (hw : tn + 2 ^ bk.width ≤ i) (h63 : i < tn + 2 ^ 64)
    (hb : bk ≠ .nrfTimer) (hb2 : bk ≠ .imxrt) : written bk i tn = 0 := by
  have hpos := Nat.two_pow_pos bk.width
  have hs := sub_toNat (show tn ≤ i by omega) h63
  cases bk with
  | nrfRtc =>
    simp only [written, Backend.compareValue, rtcCompare, hs]
    simp only [Backend.width] at hw ⊢
    rw [if_neg (by omega)]
  | nrfTimer => exact absurd rfl hb
  | imxrt => exact absurd rfl hb2
  | stm32 wide | silabsTimer wide | silabsRtcc | rp =>
    simp only [written, Backend.compareValue, checkedCompare, hs]
    rw [if_neg (by omega)]

/-- **C33** The timer interrupt handler is triggered no later than the requested instant, up to `Backend.slack`: zero for the STM32, nRF TIMER, i.MX RT, Silabs TIMER and RTCC backends, two ticks on
the nRF RTC, and on the RP chips the time between the clock read and the register write. It is also triggered within one timer period, so that far instants are re-evaluated. -/
theorem C33_in_time_partial (bk : Backend) {i tn tw : Nat} (h1 : tn ≤ tw) (h2 : tw < i)
    (h63 : i < tn + 2 ^ 64) (hn : bk = .nrfRtc → tw = tn) :
    (∃ u, tn < u ∧ Triggers bk tn tw (written bk i tn) u ∧ u ≤ i + bk.slack tn tw) ∧
    (∃ u, tn < u ∧ Triggers bk tn tw (written bk i tn) u ∧ u ≤ tw + 2 ^ bk.width) := by
  have hpos := Nat.two_pow_pos bk.width
  by_cases htr : bk = .nrfTimer ∨ bk = .imxrt
  · have hper : bk.periodIrq = true := by rcases htr with rfl | rfl <;> rfl
    have hd : bk.deaf = 0 := by rcases htr with rfl | rfl <;> rfl
    have hv : written bk i tn = i % 2 ^ bk.width := by
      rcases htr with rfl | rfl <;>
      · simp only [written, Backend.compareValue, truncCompare]
        exact mod_mod_pow i (by simp [Backend.width])
    obtain ⟨u, hu1, hu2, hu3⟩ := exists_multiple tn _ hpos
    exact ⟨⟨i, by omega, .inl ⟨by omega, hv.symm⟩, by omega⟩, ⟨u, hu1, .inr ⟨hper, hu1, hu3⟩, by omega⟩⟩
  · have hb1 : bk ≠ .nrfTimer := fun h => htr (.inl h)
    have hb2 : bk ≠ .imxrt := fun h => htr (.inr h)
    rcases Nat.lt_or_ge i (tn + 2 ^ bk.width) with hw | hw
    · -- near
      by_cases hn3 : bk = .nrfRtc ∧ i < tn + 3
      · obtain ⟨rfl, h3⟩ := hn3
        have htw := hn rfl
        have hs := sub_toNat (show tn ≤ i by omega) h63
        have hv : written .nrfRtc i tn = (tn + 3) % 2 ^ 24 := by
          simp only [written, Backend.compareValue, rtcCompare, hs]
          rw [if_pos (by omega), if_pos (by omega), BitVec.toNat_add, BitVec.toNat_ofNat]
          have : (3#64).toNat = 3 := rfl
          rw [this]; omega
        have ht : Triggers .nrfRtc tn tw (written .nrfRtc i tn) (tn + 3) := .inl ⟨by simp [Backend.deaf]; omega, hv.symm⟩
        exact ⟨⟨tn + 3, by omega, ht, by simp only [Backend.slack]; omega⟩,
          ⟨tn + 3, by omega, ht, by simp only [Backend.width]; omega⟩⟩
      · have hn3' : bk = .nrfRtc → tn + 3 ≤ i := fun h => by
          by_cases h3 : i < tn + 3
          · exact absurd ⟨h, h3⟩ hn3
          · omega
        have := C33_exact_in_window bk h1 h2 hw (fun h => ⟨hn h, hn3' h⟩)
        exact ⟨⟨i, by omega, .inl this.1, by omega⟩, ⟨i, by omega, .inl this.1, by omega⟩⟩
    · -- far
      have hv := written_far hw h63 hb1 hb2
      rw [hv]
      by_cases hper : bk.periodIrq = true
      · obtain ⟨u, hu1, hu2, hu3⟩ := exists_multiple tn _ hpos
        exact ⟨⟨u, hu1, .inr ⟨hper, hu1, hu3⟩, by omega⟩, ⟨u, hu1, .inr ⟨hper, hu1, hu3⟩, by omega⟩⟩
      · have : bk = .rp := by cases bk <;> simp_all [Backend.periodIrq]
        subst this
        obtain ⟨u, hu1, hu2, hu3⟩ := exists_multiple tw _ hpos
        have ht : Triggers .rp tn tw 0 u := .inl ⟨by simp [Backend.deaf]; omega, hu3⟩
        exact ⟨⟨u, by omega, ht, by simp only [Backend.slack]; omega⟩, ⟨u, by omega, ht, by omega⟩⟩

/-- **C33** For the backends other than the nRF RTC, and on the RP chips if `set_compare` takes less than a tick, the handler is triggered no later than the requested instant, however far it is. -/
theorem C33_never_late (bk : Backend) {i tn tw : Nat} (h1 : tn ≤ tw) (h2 : tw < i)
    (h63 : i < tn + 2 ^ 64) (hn : bk ≠ .nrfRtc) (hr : bk = .rp → tw = tn) :
    ∃ u, tn < u ∧ Triggers bk tn tw (written bk i tn) u ∧ u ≤ i := by
  obtain ⟨⟨u, ha, hb, hc⟩, -⟩ := C33_in_time_partial bk h1 h2 h63 (fun h => absurd h hn)
  refine ⟨u, ha, hb, ?_⟩
  cases bk <;> simp_all [Backend.slack]

-- far instant on a 16-bit timer: the next overflow re-evaluates
example : written (.stm32 false) 500000 1000 = 0 ∧ Triggers (.stm32 false) 1000 1002 0 65536 := by
  refine ⟨by decide, .inl ⟨?_, ?_⟩⟩ <;> decide
-- nRF RTC, one tick ahead: fires three ticks after now
example : written .nrfRtc 101 100 = 103 ∧ CompareMatch .nrfRtc 100 103 103 := by
  refine ⟨by decide, ?_, ?_⟩ <;> decide

/-- **C33** (violated on the RP chips, by one tick) If the 64-bit counter crosses a multiple of `2^32` between the clock read and the write of the
alarm register and the instant is exactly one period after the clock read, the alarm comes only after the instant. -/
theorem C33_rp_late_violated : ∃ i tn tw, tn ≤ tw ∧ tw < i ∧ i < tn + 2 ^ 63 ∧
    ∀ u, Triggers .rp tn tw (written .rp i tn) u → i < u := by
  refine ⟨2 ^ 33 - 1, 2 ^ 32 - 1, 2 ^ 32, by omega, by omega, by omega, ?_⟩
  intro u hu
  have hv : written .rp (2 ^ 33 - 1) (2 ^ 32 - 1) = 0 := by decide
  rw [hv] at hu
  rcases hu with ⟨h1, h2⟩ | ⟨h1, _⟩
  · simp only [Backend.deaf, Backend.width] at h1 h2; omega
  · simp [Backend.periodIrq] at h1

/-- **C33** (violated on the nRF RTC) an instant one or two ticks ahead triggers only after the instant, unless the counter overflows at it. -/
theorem C33_nrf_rtc_late_violated {tn i : Nat} (h1 : tn < i) (h3 : i < tn + 3) (hz : (tn + 1) % 2 ^ 24 ≠ 0) (hz2 : (tn + 2) % 2 ^ 24 ≠ 0) :
    ∀ u, Triggers .nrfRtc tn tn (written .nrfRtc i tn) u → i < u := by
  intro u hu
  have hs := sub_toNat (show tn ≤ i by omega) (show i < tn + 2 ^ 64 by omega)
  have hv : written .nrfRtc i tn = (tn + 3) % 2 ^ 24 := by
    simp only [written, Backend.compareValue, rtcCompare, hs]
    rw [if_pos (by omega), if_pos (by omega), BitVec.toNat_add, BitVec.toNat_ofNat]
    have : (3#64).toNat = 3 := rfl
    rw [this]; omega
  rw [hv] at hu
  rcases hu with ⟨ha, hb⟩ | ⟨-, hb, hc⟩
  · simp only [Backend.deaf, Backend.width] at ha hb
    omega
  · simp only [Backend.width] at hc
    have : u ≠ tn + 1 := by intro h; subst h; exact hz hc
    have : u ≠ tn + 2 := by intro h; subst h; exact hz2 hc
    omega

example : ((100 + 1) % 2 ^ 24 ≠ 0 ∧ (100 + 2) % 2 ^ 24 ≠ 0 : Prop) := by decide

/-! ## C34 -/

theorem div_eq_of_between {p a b c : Nat} (h1 : a ≤ b) (h2 : b ≤ c) (h : a / p = c / p) : b / p = a / p :=
  Nat.le_antisymm (h ▸ Nat.div_le_div_right h2) (Nat.div_le_div_right h1)

theorem rpLoop_spec {c : Nat → Nat} (hm : ∀ i j, i ≤ j → c i ≤ c j) :
    ∀ fuel k v last, 0 < k → rpLoop c fuel k (c (k - 1) / 2 ^ 32) = some (v, last) →
      ∃ j, k ≤ j ∧ j ≤ last ∧ v = c j := by
  intro fuel
  induction fuel with
  | zero => intro k v last _ h; simp [rpLoop] at h
  | succ n ih =>
    intro k v last hk h
    simp only [rpLoop] at h
    split at h
    · rename_i he
      simp only [Option.some.injEq, Prod.mk.injEq] at h
      obtain ⟨rfl, rfl⟩ := h
      refine ⟨k, by omega, by omega, ?_⟩
      have := div_eq_of_between (p := 2 ^ 32) (hm (k - 1) k (by omega)) (hm k (k + 1) (by omega)) he
      rw [← this]
      have := Nat.div_add_mod (c k) (2 ^ 32)
      omega
    · have := ih (k + 2) v last (by omega) h
      obtain ⟨j, h1, h2, h3⟩ := this
      exact ⟨j, by omega, h2, h3⟩

/-- **C34** However the 64-bit counter advances between the register reads of `now` (`c k` = its value at the `k`-th read), the returned value is the value of
the counter at the moment of one of the reads, hence between its values at the first and last read. -/
theorem C34_not_torn (c : Nat → Nat) (hm : ∀ i j, i ≤ j → c i ≤ c j) (fuel v last : Nat)
    (h : rpNow c fuel = some (v, last)) : (∃ j, 0 < j ∧ j ≤ last ∧ v = c j) ∧ c 0 ≤ v ∧ v ≤ c last := by
  obtain ⟨j, h1, h2, h3⟩ := rpLoop_spec hm fuel 1 v last (by omega) h
  exact ⟨⟨j, h1, h2, h3⟩, h3 ▸ hm 0 j (by omega), h3 ▸ hm j last h2⟩

/-- **C34** The loop ends after at most two iterations (five register reads) if they together take less than `2^32` ticks. -/
theorem C34_terminates (c : Nat → Nat) (hm : ∀ i j, i ≤ j → c i ≤ c j) (hf : c 4 < c 0 + 2 ^ 32) :
    ∃ v last, rpNow c 2 = some (v, last) ∧ last ≤ 4 := by
  have h01 := hm 0 1 (by omega)
  have h12 := hm 1 2 (by omega)
  have h23 := hm 2 3 (by omega)
  have h34 := hm 3 4 (by omega)
  simp only [rpNow, rpLoop, Nat.reduceAdd]
  split
  · exact ⟨_, _, rfl, by omega⟩
  · split
    · exact ⟨_, _, rfl, by omega⟩
    · omega

-- the counter carries into the high word between the first two reads
example : rpNow (fun k => 2 ^ 32 - 1 + k) 2 = some (2 ^ 32 + 2, 4) := by decide

/-! ## C35 -/

theorem supd_apply {α} (f : Nat → α) (i j : Nat) (a : α) : supd f i a j = if j = i then a else f j := rfl
grind_pattern supd_apply => supd f i a j

theorem sexec_append {s : SSt} {as bs : List SAct} :
    sexec s (as ++ bs) = match sexec s as with
      | none => none
      | some (s1, e1) => match sexec s1 bs with
        | none => none
        | some (s2, e2) => some (s2, e1 ++ e2) := by
  induction as generalizing s with
  | nil => simp only [List.nil_append, sexec]; cases sexec s bs with
    | none => rfl
    | some p => simp
  | cons a as ih =>
    simp only [List.cons_append, sexec]
    cases sstep s a with
    | none => rfl
    | some p =>
      simp only [ih]
      cases sexec p.1 as with
      | none => rfl
      | some q => simp only; cases sexec q.1 bs with
        | none => rfl
        | some r => simp [List.append_assoc]

/-- a property of states kept by every step holds after every execution -/
theorem sexec_inv {P : SSt → Prop} (hstep : ∀ s a s1 e, P s → sstep s a = some (s1, e) → P s1) :
    ∀ acts s s2 tr, P s → sexec s acts = some (s2, tr) → P s2 := by
  intro acts
  induction acts with
  | nil => intro s s2 tr h he; simp only [sexec, Option.some.injEq, Prod.mk.injEq] at he; obtain ⟨rfl, rfl⟩ := he; exact h
  | cons a as ih =>
    intro s s2 tr h he
    simp only [sexec] at he
    cases hs : sstep s a with
    | none => rw [hs] at he; cases he
    | some p =>
      rw [hs] at he
      simp only at he
      cases hx : sexec p.1 as with
      | none => rw [hx] at he; cases he
      | some q =>
        rw [hx] at he
        simp only [Option.some.injEq, Prod.mk.injEq] at he
        obtain ⟨rfl, rfl⟩ := he
        exact ih p.1 q.1 q.2 (hstep s a p.1 p.2 h hs) hx

/-- the calls between `has_wrapped` and `fetch_add` -/
def InFlight (s : SSt) (l : List Nat) : Prop := l.Nodup ∧ ∀ i, i ∈ l ↔ s.pc i = .add

/-- accounting: every wrap is in the flag, in flight or counted -/
def SInv (s : SSt) : Prop := ∃ l, InFlight s l ∧ s.wraps = s.cnt + l.length + (if s.flag then 1 else 0)

theorem sinv_init : SInv sinit := ⟨[], ⟨List.nodup_nil, by simp [sinit]⟩, rfl⟩

theorem sinv_step (s : SSt) (a : SAct) (s1 : SSt) (e : List SEv) (h : SInv s) (hs : sstep s a = some (s1, e)) : SInv s1 := by
  obtain ⟨l, ⟨hn, hl⟩, hw⟩ := h
  cases a with
  | wrap =>
    simp only [sstep] at hs
    split at hs
    · cases hs
    · rename_i hf
      simp only [Option.some.injEq, Prod.mk.injEq] at hs
      obtain ⟨rfl, rfl⟩ := hs
      exact ⟨l, ⟨hn, hl⟩, by simp_all⟩
  | call i n =>
    simp only [sstep] at hs
    split at hs
    · simp only [Option.some.injEq, Prod.mk.injEq] at hs
      obtain ⟨rfl, rfl⟩ := hs
      refine ⟨l, ⟨hn, fun j => ?_⟩, hw⟩
      have := hl j
      grind
    · cases hs
  | step i =>
    simp only [sstep] at hs
    cases hp : s.pc i with
    | idle => rw [hp] at hs; cases hs
    | check =>
      simp only [hp] at hs
      split at hs
      · simp only [Option.some.injEq, Prod.mk.injEq] at hs
        obtain ⟨rfl, rfl⟩ := hs
        refine ⟨i :: l, ⟨?_, fun j => ?_⟩, ?_⟩
        · have := hl i
          grind
        · have := hl j
          grind
        · simp_all; omega
      · simp only [Option.some.injEq, Prod.mk.injEq] at hs
        obtain ⟨rfl, rfl⟩ := hs
        refine ⟨l, ⟨hn, fun j => ?_⟩, hw⟩
        have := hl j
        grind
    | add =>
      simp only [hp, Option.some.injEq, Prod.mk.injEq] at hs
      obtain ⟨rfl, rfl⟩ := hs
      refine ⟨l.erase i, ⟨hn.erase i, fun j => ?_⟩, ?_⟩
      · have := hl j
        have := hn.mem_erase_iff (a := j) (b := i)
        grind
      · have hi : i ∈ l := (hl i).mpr hp
        have := List.length_erase_of_mem hi
        have := List.length_pos_of_mem hi
        simp only at hw ⊢
        omega
    | load =>
      simp only [hp, Option.some.injEq, Prod.mk.injEq] at hs
      obtain ⟨rfl, rfl⟩ := hs
      refine ⟨l, ⟨hn, fun j => ?_⟩, hw⟩
      have := hl j
      grind

theorem sstep_cnt_mono {s : SSt} {a : SAct} {s1 : SSt} {e : List SEv} (hs : sstep s a = some (s1, e)) :
    s.cnt ≤ s1.cnt ∧ ∀ i v, .ret i v ∈ e → v = s.cnt := by
  cases a with
  | wrap => grind [sstep]
  | call i n => grind [sstep]
  | step i => simp only [sstep] at hs; cases hp : s.pc i <;> simp only [hp] at hs <;> grind

theorem sexec_rets {acts : List SAct} {s s2 : SSt} {tr : List SEv} (he : sexec s acts = some (s2, tr)) :
    s.cnt ≤ s2.cnt ∧ (∀ i v, .ret i v ∈ tr → s.cnt ≤ v ∧ v ≤ s2.cnt) := by
  induction acts generalizing s tr with
  | nil => simp only [sexec, Option.some.injEq, Prod.mk.injEq] at he; obtain ⟨rfl, rfl⟩ := he; simp
  | cons a as ih =>
    simp only [sexec] at he
    cases hs : sstep s a with
    | none => rw [hs] at he; cases he
    | some p =>
      rw [hs] at he
      simp only at he
      cases hx : sexec p.1 as with
      | none => rw [hx] at he; cases he
      | some q =>
        rw [hx] at he
        simp only [Option.some.injEq, Prod.mk.injEq] at he
        obtain ⟨rfl, rfl⟩ := he
        have h1 := sstep_cnt_mono (e := p.2) (s1 := p.1) hs
        have h2 := ih (tr := q.2) hx
        refine ⟨by omega, fun i v hv => ?_⟩
        rcases List.mem_append.mp hv with hv | hv
        · have := h1.2 i v hv; omega
        · have := h2.2 i v hv; omega

/-- **C35** (monotonic) In every execution, a value returned by `now` is at least every value returned before. -/
theorem C35_monotonic {acts1 acts2 : List SAct} {s1 s2 : SSt} {tr1 tr2 : List SEv}
    (h1 : sexec sinit acts1 = some (s1, tr1)) (h2 : sexec s1 acts2 = some (s2, tr2))
    {i j v1 v2 : Nat} (hv1 : .ret i v1 ∈ tr1) (hv2 : .ret j v2 ∈ tr2) : v1 ≤ v2 := by
  have := (sexec_rets h1).2 i v1 hv1
  have := (sexec_rets h2).2 j v2 hv2
  omega

/-- **C35** (no tick is missed or counted twice) In every reachable state in which no call is between clearing the flag and incrementing the counter, the counter
plus the not yet noticed tick is exactly the number of ticks that happened — whoever noticed them. -/
theorem C35_no_tick_missed {acts : List SAct} {s : SSt} {tr : List SEv} (h : sexec sinit acts = some (s, tr))
    (hq : ∀ i, s.pc i ≠ .add) : s.wraps = s.cnt + (if s.flag then 1 else 0) := by
  obtain ⟨l, ⟨-, hl⟩, hw⟩ := sexec_inv sinv_step acts _ _ _ sinv_init h
  have : l = [] := List.eq_nil_iff_forall_not_mem.mpr fun i hi => hq i ((hl i).mp hi)
  subst this; simpa using hw

/-- **C35** The clock never runs ahead of the true time. -/
theorem C35_never_ahead {acts : List SAct} {s : SSt} {tr : List SEv} (h : sexec sinit acts = some (s, tr)) : s.cnt ≤ s.wraps := by
  obtain ⟨l, -, hw⟩ := sexec_inv sinv_step acts _ _ _ sinv_init h
  omega

-- tick 1 noticed by a reader, tick 2 by the interrupt; both read correctly
example : ∃ s, sexec sinit [.wrap, .call 0 true, .step 0, .step 0, .step 0, .wrap, .call 1 false, .step 1, .step 1, .call 0 true, .step 0, .step 0]
    = some (s, [.began 0 1, .ret 0 1, .began 0 2, .ret 0 2]) := ⟨_, rfl⟩

/-- after the check step of call `i` at time `W`, until it returns -/
def SPast (i W : Nat) (s : SSt) : Prop := (s.pc i = .add ∧ W ≤ s.cnt + 1 ∧ s.isNow i = true) ∨ (s.pc i = .load ∧ W ≤ s.cnt)

theorem spast_step {i W : Nat} {s s1 : SSt} {a : SAct} {e : List SEv} (h : SPast i W s) (hs : sstep s a = some (s1, e))
    (hr : ∀ v, .ret i v ∉ e) : SPast i W s1 := by
  unfold SPast at *
  cases a with
  | wrap =>
    simp only [sstep] at hs
    split at hs
    · cases hs
    · simp only [Option.some.injEq, Prod.mk.injEq] at hs
      obtain ⟨rfl, rfl⟩ := hs
      exact h
  | call j n =>
    simp only [sstep] at hs
    split at hs
    · rename_i hj
      simp only [Option.some.injEq, Prod.mk.injEq] at hs
      obtain ⟨rfl, rfl⟩ := hs
      have hij : i ≠ j := by rintro rfl; rw [hj] at h; simp at h
      simpa [supd_apply, hij] using h
    · cases hs
  | step j =>
    simp only [sstep] at hs
    by_cases hij : i = j
    · subst hij
      rcases h with ⟨hp, hw, hn⟩ | ⟨hp, hw⟩
      · simp only [hp, hn, Option.some.injEq, Prod.mk.injEq] at hs
        obtain ⟨rfl, rfl⟩ := hs
        right; simp [supd_apply]; exact hw
      · simp only [hp, Option.some.injEq, Prod.mk.injEq] at hs
        obtain ⟨rfl, rfl⟩ := hs
        exact absurd (hr s.cnt) (by simp)
    · cases hp : s.pc j with
      | idle => rw [hp] at hs; cases hs
      | check =>
        simp only [hp] at hs
        split at hs <;> simp only [Option.some.injEq, Prod.mk.injEq] at hs <;> obtain ⟨rfl, rfl⟩ := hs <;>
          simpa [supd_apply, hij] using h
      | add =>
        simp only [hp, Option.some.injEq, Prod.mk.injEq] at hs
        obtain ⟨rfl, rfl⟩ := hs
        simp only [supd_apply, if_neg hij]
        rcases h with ⟨h1, h2, h3⟩ | ⟨h1, h2⟩
        · exact .inl ⟨h1, by omega, h3⟩
        · exact .inr ⟨h1, by omega⟩
      | load =>
        simp only [hp, Option.some.injEq, Prod.mk.injEq] at hs
        obtain ⟨rfl, rfl⟩ := hs
        simpa [supd_apply, hij] using h

theorem spast_exec {i W : Nat} {acts : List SAct} : ∀ {s s2 : SSt} {tr : List SEv}, SPast i W s → sexec s acts = some (s2, tr) →
    (∀ v, .ret i v ∉ tr) → SPast i W s2 := by
  induction acts with
  | nil => intro s s2 tr h he _; simp only [sexec, Option.some.injEq, Prod.mk.injEq] at he; obtain ⟨rfl, rfl⟩ := he; exact h
  | cons a as ih =>
    intro s s2 tr h he hr
    simp only [sexec] at he
    cases hs : sstep s a with
    | none => rw [hs] at he; cases he
    | some p =>
      rw [hs] at he
      simp only at he
      cases hx : sexec p.1 as with
      | none => rw [hx] at he; cases he
      | some q =>
        rw [hx] at he
        simp only [Option.some.injEq, Prod.mk.injEq] at he
        obtain ⟨rfl, rfl⟩ := he
        exact ih (spast_step h hs fun v hv => hr v (List.mem_append_left _ hv)) hx
          fun v hv => hr v (List.mem_append_right _ hv)

/-- **C58** (partial) If, when a call of `now` tests the flag, no other call has cleared the flag without having incremented the counter yet, then the call
returns a value between the number of ticks elapsed at the test and the number elapsed when it returns, whatever runs in between. -/
theorem C58_now_current_partial {acts0 acts : List SAct} {s s1 s2 s3 : SSt} {tr0 e1 tr : List SEv} {i v : Nat}
    (h0 : sexec sinit acts0 = some (s, tr0)) (hn : s.isNow i = true) (hc : s.pc i = .check) (hq : ∀ j, s.pc j ≠ .add)
    (h1 : sstep s (.step i) = some (s1, e1)) (h2 : sexec s1 acts = some (s2, tr)) (hr : ∀ v', .ret i v' ∉ tr)
    (h3 : sstep s2 (.step i) = some (s3, [.ret i v])) : s.wraps ≤ v ∧ v ≤ s2.wraps := by
  have hw := C35_no_tick_missed h0 hq
  have hp : SPast i s.wraps s1 := by
    simp only [sstep, hc, hn] at h1
    unfold SPast
    split at h1 <;> simp only [Option.some.injEq, Prod.mk.injEq] at h1 <;> obtain ⟨rfl, rfl⟩ := h1 <;> simp_all [supd_apply]
  have hp2 := spast_exec hp h2 hr
  have hall : sexec sinit (acts0 ++ .step i :: acts) = some (s2, tr0 ++ (e1 ++ tr)) := by
    rw [sexec_append, h0]; simp [sexec, h1, h2]
  have hle := C35_never_ahead hall
  have hv : v = s2.cnt := (sstep_cnt_mono h3).2 i v (by simp)
  rcases hp2 with ⟨hadd, -, -⟩ | ⟨-, hge⟩
  · simp only [sstep, hadd, Option.some.injEq, Prod.mk.injEq] at h3
    exact absurd h3.2 (by simp)
  · omega

/-- **C58** (violated) A reader that was preempted between clearing the flag and incrementing the counter makes a preempting reader — for instance the SysTick interrupt handler deciding which delays
are due — see a time one tick too early, although the tick happened before it started. -/
theorem C58_stale_violated : ∃ acts s tr w v, sexec sinit acts = some (s, tr) ∧ .began 1 w ∈ tr ∧ .ret 1 v ∈ tr ∧ v < w := by
  refine ⟨[.wrap, .call 0 true, .step 0, .call 1 true, .step 1, .step 1], _, _, 1, 0, rfl, ?_, ?_, ?_⟩ <;> decide

/-! ## C55 -/

theorem min?_spec {l : List Nat} {m : Nat} (h : l.min? = some m) : m ∈ l ∧ ∀ x ∈ l, m ≤ x := by
  have := List.min?_eq_some_iff.mp h
  exact this

/-- **C55** For all hardware-task priorities (at least 1, as the parser demands) and every number of priority bits, the priority given to the timer interrupt is legal, and it is strictly below
that of every hardware task, unless some hardware task has priority 1. -/
theorem C55_monotonic_prio (hw : List Nat) (bits : Nat) (hpos : ∀ p ∈ hw, 1 ≤ p ∧ p ≤ 2 ^ bits) :
    1 ≤ monotonicPrio hw bits ∧ monotonicPrio hw bits ≤ 2 ^ bits ∧
    (1 ∉ hw → ∀ p ∈ hw, monotonicPrio hw bits < p) := by
  have h2 := Nat.two_pow_pos bits
  refine ⟨by simp only [monotonicPrio, limitedPrio]; omega, by simp only [monotonicPrio, limitedPrio]; omega, ?_⟩
  intro h1 p hp
  have hne : hw ≠ [] := by rintro rfl; cases hp
  cases hm : hw.min? with
  | none => exact absurd (List.min?_eq_none_iff.mp hm) hne
  | some m =>
    obtain ⟨ha, hb⟩ := min?_spec hm
    have hmp := hb p hp
    have hm1 : m ≠ 1 := fun h => h1 (h ▸ ha)
    have := (hpos m ha)
    simp only [monotonicPrio, limitedPrio, asyncMaxLogicalPrio, maxAsyncPrio, hm, Option.map_some, Option.getD_some]
    omega

/-- **C55** Among all legal priorities with that guarantee it is the highest: without hardware tasks it is the maximum priority, otherwise one below the lowest hardware task. -/
theorem C55_monotonic_prio_max (hw : List Nat) (bits q : Nat) (hpos : ∀ p ∈ hw, 1 ≤ p ∧ p ≤ 2 ^ bits)
    (hq : q ≤ 2 ^ bits) (hlt : ∀ p ∈ hw, q < p) : q ≤ monotonicPrio hw bits := by
  cases hm : hw.min? with
  | none => simp only [monotonicPrio, limitedPrio, asyncMaxLogicalPrio, maxAsyncPrio, hm, Option.map_none, Option.getD_none]; omega
  | some m =>
    obtain ⟨ha, hb⟩ := min?_spec hm
    have := hlt m ha
    simp only [monotonicPrio, limitedPrio, asyncMaxLogicalPrio, maxAsyncPrio, hm, Option.map_some, Option.getD_some]
    omega

example : monotonicPrio [5, 3, 7] 4 = 2 ∧ monotonicPrio [] 4 = 16 ∧ monotonicPrio [1, 4] 2 = 1 := by decide

/-! ## C57 -/

/-- **C57** (violated) With the half-period counter perfectly up to date, the LETIMER clock jumps ahead by `2^32` ticks within one tick, and later goes backwards. -/
theorem C57_letimer_violated :
    (letimerNow (2 ^ 23)).toNat = (letimerNow (2 ^ 23 - 1)).toNat + 2 ^ 32 + 1 ∧
    (∃ t1 t2, t1 < t2 ∧ (letimerNow t2).toNat < (letimerNow t1).toNat) ∧
    (letimerNow (2 ^ 24)).toNat < (letimerNow (2 ^ 24 - 2)).toNat := by
  have h : (letimerNow (2 ^ 24)).toNat < (letimerNow (2 ^ 24 - 2)).toNat := by decide
  exact ⟨by decide, ⟨2 ^ 24 - 2, 2 ^ 24, by decide, h⟩, h⟩

/-- **C57** (partial) The clock is right during the first half period (256 seconds at 32768 Hz). -/
theorem C57_letimer_partial {t : Nat} (h : t < 2 ^ 23) : (letimerNow t).toNat = t := by
  have h0 : t / 2 ^ 23 = 0 := Nat.div_eq_of_lt h
  have hv : letimerValue t = t := by
    simp only [letimerValue]
    rw [Nat.mod_eq_of_lt (by omega), if_neg (by omega)]; omega
  simp only [letimerNow, HalfPeriod.calculateNow, h0, hv]
  simp
  omega

example : letimerNow 5000000 = 5000000#64 := by decide

end Verif.Backends
