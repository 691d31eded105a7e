import Verif.TimerStart.Model
import Verif.HalfPeriod.Props

/-!
# C108: starting a monotonic puts its timer into a known state
-/

namespace Verif.TimerStart

open HalfPeriod (Ev Order calculateNow)

/-! ## Specification -/

/-- What the hardware fixes: registers the peripheral does not have. Nothing else is said about the state before `_start`. -/
def Timer.Possible : Timer → Hw → Prop
  | .stm32 _, s => s.enmod = false
  | .silabsTimer _, s => s.clocked = true ∧ s.short = false ∧ s.ovAt = 0 ∧ s.recO = true ∧ s.enmod = false
  | .imxrt, s => s.clocked = true ∧ s.short = false ∧ s.ovAt = 0 ∧ s.recO = true ∧ s.recH = true
  | .nrfTimer, s => s.recO = true ∧ s.recH = true ∧ s.enmod = false
  | .nrfRtc, s => s.clocked = true ∧ s.short = false ∧ s.per = 2 ^ 24 ∧ s.ovAt = 0 ∧ s.enmod = false
  | .rtcc, s => s.clocked = true ∧ s.short = false ∧ s.per = 2 ^ 32 ∧ s.ovAt = 0 ∧ s.recO = true ∧ s.enmod = false

/-- What `_start` relies on in addition: nothing for STM32, Silabs TIMER and i.MX RT; a stopped timer in timer mode without shorts for nRF TIMER; a stopped one for nRF RTC;
one as after a reset for the RTCC. -/
def Timer.Clean : Timer → Hw → Prop
  | .nrfTimer, s => s.run = false ∧ s.clocked = true ∧ s.short = false
  | .nrfRtc, s => s.run = false
  | .rtcc, s => s.run = false ∧ s.cnt = 0 ∧ s.halfAt = 0 ∧ s.ovf = false ∧ s.half = false ∧ s.hp = 0 ∧ s.age = 0
  | _, _ => True

/-- The timers whose `_start` configures the counter while it runs: less than half a period must pass. -/
def Timer.live : Timer → Bool
  | .nrfTimer => true
  | .nrfRtc => true
  | .rtcc => true
  | _ => false

/-- The prescaler requested of `_start` is in use (the RTCC and i.MX RT leave theirs as configured by the user). -/
def Timer.RateOk (p : Nat) : Timer → Hw → Prop
  | .stm32 _, s => s.psc = p
  | .silabsTimer _, s => s.psc = p
  | .nrfTimer, s => s.psc = p
  | .nrfRtc, s => s.psc = 0
  | _, _ => True

/-- The timer counts through all its values, records overflows and half periods, and its interrupt is enabled. -/
structure Ready (bits : Nat) (s : Hw) : Prop where
  run : s.run = true
  clocked : s.clocked = true
  short : s.short = false
  per : s.per = 2 ^ bits
  ovAt : s.ovAt = 0
  halfAt : s.halfAt = 2 ^ (bits - 1)
  recO : s.recO = true
  recH : s.recH = true
  ieO : s.ieO = true
  ieH : s.ieH = true
  tq : s.tq = true
  irq : s.irq = true

/-- Counter, flags and software half-period counter are those of the clock of C32 at this state. -/
def Agrees (bits : Nat) (s : Hw) (h : HalfPeriod.St) : Prop :=
  s.cnt = h.t % 2 ^ bits ∧ s.hp = h.hp ∧ s.ovf = h.ovf ∧ s.half = h.half

/-- The clock of C32, `n` ticks after it was started with the value `t0`. -/
def aged (bits t0 n : Nat) : HalfPeriod.St := HalfPeriod.run bits .overflowFirst (HalfPeriod.start t0) (List.replicate n .tick)

/-! ## Ticks -/

theorem aged_succ (bits t0 n : Nat) : aged bits t0 (n + 1) = HalfPeriod.tickStep bits (aged bits t0 n) := by
  simp [aged, HalfPeriod.run, List.replicate_succ', List.foldl_append, HalfPeriod.stepEv]

theorem aged_t (bits t0 n : Nat) : (aged bits t0 n).t = t0 + n := by
  induction n with
  | zero => rfl
  | succ n ih => rw [aged_succ]; simp only [HalfPeriod.tickStep, ih]; omega

theorem aged_low {bits t0 n : Nat} (h : t0 + n < 2 ^ (bits - 1)) (hb : 0 < bits) : aged bits t0 n = { t := t0 + n, hp := 0, ovf := false, half := false, panicked := false } := by
  induction n with
  | zero => rfl
  | succ n ih =>
    have h2 := HalfPeriod.two_pow_pred hb
    rw [aged_succ, ih (by omega)]
    simp only [HalfPeriod.tickStep]
    rw [Nat.mod_eq_of_lt (by omega)]
    have e1 : (t0 + n + 1 == 0) = false := by simp
    have e2 : (t0 + n + 1 == 2 ^ (bits - 1)) = false := by rw [beq_eq_false_iff_ne]; omega
    rw [e1, e2]; rfl

theorem succ_mod (t p : Nat) (hp : 0 < p) : (if p ≤ t % p + 1 then 0 else t % p + 1) = (t + 1) % p := by
  have h1 : t % p < p := Nat.mod_lt _ hp
  split
  · have : t % p = p - 1 := by omega
    rw [Nat.add_mod, this]
    rcases Nat.lt_or_ge 1 p with h | h
    · rw [Nat.mod_eq_of_lt h, Nat.sub_add_cancel hp, Nat.mod_self]
    · have : p = 1 := by omega
      subst this; simp [Nat.mod_one]
  · rw [Nat.add_mod t 1]
    rcases Nat.lt_or_ge 1 p with h | h
    · rw [Nat.mod_eq_of_lt h, Nat.mod_eq_of_lt (a := t % p + 1) (by omega)]
    · omega

theorem tick_agrees {bits : Nat} {s : Hw} {h : HalfPeriod.St} (hr : s.run = true) (hc : s.clocked = true) (hs : s.short = false) (hp : s.per = 2 ^ bits)
    (ho : s.ovAt = 0) (hh : s.halfAt = 2 ^ (bits - 1)) (hrO : s.recO = true) (hrH : s.recH = true) (ha : Agrees bits s h) : Agrees bits (tick s) (HalfPeriod.tickStep bits h) := by
  obtain ⟨a1, a2, a3, a4⟩ := ha
  simp only [Agrees, tick, HalfPeriod.tickStep, hr, hc, hs, hp, ho, hh, hrO, hrH, a1, a2, a3, a4, succ_mod _ _ (Nat.two_pow_pos bits)]
  simp

theorem ready_tick {bits : Nat} {s : Hw} (h : Ready bits s) : Ready bits (tick s) := by
  obtain ⟨h1, h2, h3, h4, h5, h6, h7, h8, h9, h10, h11, h12⟩ := h
  constructor <;> simp [tick, *]

theorem ready_service {bits : Nat} {o : Order} {s : Hw} (h : Ready bits s) : Ready bits (service o s) := by
  obtain ⟨h1, h2, h3, h4, h5, h6, h7, h8, h9, h10, h11, h12⟩ := h
  constructor <;> cases o <;> simp only [service, serviceO, serviceH] <;> (repeat' split) <;> assumption

theorem service_agrees {bits : Nat} {o : Order} {s : Hw} {h : HalfPeriod.St} (ha : Agrees bits s h) : Agrees bits (service o s) (HalfPeriod.service o h) := by
  obtain ⟨a1, a2, a3, a4⟩ := ha
  cases o <;> simp only [Agrees, service, HalfPeriod.service, serviceO, serviceH, HalfPeriod.serviceOvf, HalfPeriod.serviceHalf, a3, a4] <;>
    rcases h with ⟨t, hp, _ | _, _ | _, p⟩ <;> simp_all

theorem panics_agrees {bits : Nat} {o : Order} {s : Hw} {h : HalfPeriod.St} (ha : Agrees bits s h) (hp : h.panicked = false) : panics o s = (HalfPeriod.service o h).panicked := by
  obtain ⟨a1, a2, a3, a4⟩ := ha
  cases o <;> simp only [panics, HalfPeriod.service, serviceO, serviceH, HalfPeriod.serviceOvf, HalfPeriod.serviceHalf, a3, a4] <;>
    rcases h with ⟨t, hp, _ | _, _ | _, p⟩ <;> simp_all

/-! ## Executing the accesses -/

theorem run_nil {I : Hw → Prop} (ht : ∀ s, I s → I (tick s)) {s s' : Hw} (h : Run s [] s') (hi : I s) : I s' := by
  generalize hq : ([] : List Op) = q at h
  induction h with
  | done s => exact hi
  | tick h ih => exact ih (ht _ hi) hq
  | op h ih => cases hq

/-- the next access of an execution; `I` holds before it whatever the clock does -/
theorem run_cons {I J : Hw → Prop} (ht : ∀ s, I s → I (tick s)) {o : Op} (hj : ∀ s, I s → J (o.app s)) {p : List Op} {s s' : Hw} (h : Run s (o :: p) s') (hi : I s) :
    ∃ s1, J s1 ∧ Run s1 p s' := by
  generalize hq : o :: p = q at h
  induction h with
  | done s => cases hq
  | tick h ih => exact ih (ht _ hi) hq
  | op h ih => cases hq; exact ⟨_, hj _ hi, h⟩

/-- as long as the counter is stopped, executions are determined by the accesses -/
theorem run_stopped {o : Op} {p : List Op} {s s' : Hw} (h : Run s (o :: p) s') (hi : s.run = false) : Run (o.app s) p s' := by
  obtain ⟨s1, rfl, h1⟩ := run_cons (I := (· = s)) (J := (· = o.app s)) (by rintro _ rfl; simp [tick, hi]) (by rintro _ rfl; rfl) h rfl
  exact h1

theorem app_stopped {o : Op} (ho : o ≠ .enable) {s : Hw} (h : s.run = false) : (o.app s).run = false := by
  cases o <;> simp_all [Op.app]

theorem run_quiet : ∀ (q : List Op) {p : List Op} {s s' : Hw} (_ : ∀ o ∈ q, o ≠ .enable) (_ : Run s (q ++ p) s') (_ : s.run = false),
    Run (q.foldl Op.app s) p s' ∧ (q.foldl Op.app s).run = false
  | [], _, _, _, _, h, hi => ⟨h, hi⟩
  | _ :: q, _, _, _, hq, h, hi =>
    run_quiet q (fun o ho => hq o (List.mem_cons_of_mem _ ho)) (run_stopped h hi) (app_stopped (hq _ List.mem_cons_self) hi)

/-- an invariant kept by the clock and by all remaining accesses -/
theorem run_all {I : Hw → Prop} (ht : ∀ s, I s → I (tick s)) {p : List Op} (hp : ∀ o ∈ p, ∀ s, I s → I (o.app s)) {s s' : Hw} (h : Run s p s') (hi : I s) : I s' := by
  induction h with
  | done s => exact hi
  | tick h ih => exact ih hp (ht _ hi)
  | op h ih => exact ih (fun o ho => hp o (List.mem_cons_of_mem _ ho)) (hp _ List.mem_cons_self _ hi)

/-- everything but the unmasking is done -/
structure Almost (b : Timer) (p : Nat) (s : Hw) : Prop where
  run : s.run = true
  clocked : s.clocked = true
  short : s.short = false
  per : s.per = 2 ^ b.bits
  ovAt : s.ovAt = 0
  halfAt : s.halfAt = 2 ^ (b.bits - 1)
  recO : s.recO = true
  recH : s.recH = true
  ieO : s.ieO = true
  ieH : s.ieH = true
  tq : s.tq = true
  rate : b.RateOk p s
  agrees : Agrees b.bits s (aged b.bits b.first s.age)

theorem rateOk_tick {b : Timer} {p : Nat} {s : Hw} (h : b.RateOk p s) : b.RateOk p (tick s) := by
  have e : (tick s).psc = s.psc := by simp only [tick]; split <;> rfl
  cases b <;> simp_all [Timer.RateOk]

theorem almost_tick {b : Timer} {p : Nat} {s : Hw} (h : Almost b p s) : Almost b p (tick s) := by
  obtain ⟨h1, h2, h3, h4, h5, h6, h7, h8, h9, h10, h11, h12, h13⟩ := h
  have ha := tick_agrees h1 h2 h3 h4 h5 h6 h7 h8 h13
  have hage : (tick s).age = s.age + 1 := by simp [tick, h1, h2]
  rw [← aged_succ, ← hage] at ha
  exact ⟨by simp [tick, *], by simp [tick, *], by simp [tick, *], by simp [tick, *], by simp [tick, *], by simp [tick, *], by simp [tick, *], by simp [tick, *],
    by simp [tick, *], by simp [tick, *], by simp [tick, *], rateOk_tick h12, ha⟩

/-- the last access, `NVIC::unmask` -/
theorem almost_unmask {b : Timer} {p : Nat} {s s' : Hw} (h : Run s [.unmask] s') (ha : Almost b p s) :
    Ready b.bits s' ∧ b.RateOk p s' ∧ Agrees b.bits s' (aged b.bits b.first s'.age) := by
  obtain ⟨s1, hj, h1⟩ := run_cons (I := Almost b p) (J := fun s => Almost b p s ∧ s.irq = true) (fun s => almost_tick) (fun s h => ⟨by
    obtain ⟨h1, h2, h3, h4, h5, h6, h7, h8, h9, h10, h11, h12, h13⟩ := h
    exact ⟨h1, h2, h3, h4, h5, h6, h7, h8, h9, h10, h11, by cases b <;> exact h12, h13⟩, rfl⟩) h ha
  obtain ⟨ha, hi⟩ := run_nil (I := fun s => Almost b p s ∧ s.irq = true) (fun s h => ⟨almost_tick h.1, by simp only [tick]; split <;> exact h.2⟩) h1 hj
  exact ⟨⟨ha.run, ha.clocked, ha.short, ha.per, ha.ovAt, ha.halfAt, ha.recO, ha.recH, ha.ieO, ha.ieH, ha.tq, hi⟩, ha.rate, ha.agrees⟩

theorem agrees_start {bits t0 : Nat} {s : Hw} (h0 : t0 < 2 ^ bits) (hc : s.cnt = t0) (ha : s.age = 0) (hp : s.hp = 0) (ho : s.ovf = false) (hh : s.half = false) :
    Agrees bits s (aged bits t0 s.age) := by
  rw [ha]; exact ⟨by rw [hc]; exact (Nat.mod_eq_of_lt h0).symm, hp, ho, hh⟩

theorem start_stm32 {bits p : Nat} (hb : 0 < bits) {s s' : Hw} (h0 : s.enmod = false) (h : Run s (Timer.prog p (.stm32 bits)) s') :
    Ready bits s' ∧ s'.psc = p ∧ Agrees bits s' (aged bits 1 s'.age) := by
  obtain ⟨s1, ⟨r, h0, rfl⟩, h⟩ := run_cons (I := fun s => s.enmod = false) (J := fun s1 => ∃ r : Hw, r.enmod = false ∧ s1 = Op.app r (.reset bits))
    (fun s h => by simp only [tick]; split <;> exact h) (fun s h => ⟨s, h, rfl⟩) h h0
  replace h := run_stopped h rfl
  replace h := run_stopped h rfl
  replace h := run_stopped h rfl
  replace h := run_stopped h rfl
  replace h := run_stopped h rfl
  replace h := run_stopped h rfl
  replace h := run_stopped h rfl
  replace h := run_stopped h rfl
  replace h := run_stopped h rfl
  replace h := run_stopped h rfl
  replace h := run_stopped h rfl
  refine almost_unmask (b := .stm32 bits) h ?_
  simp only [Op.app, h0]
  exact ⟨rfl, rfl, rfl, rfl, rfl, rfl, rfl, rfl, rfl, rfl, rfl, rfl, agrees_start (Nat.one_lt_two_pow (show bits ≠ 0 by omega)) rfl rfl rfl (by simp) (by simp)⟩

theorem start_silabsTimer {bits p : Nat} (hb : 0 < bits) {s s' : Hw} (h0 : (Timer.silabsTimer bits).Possible s) (h : Run s (Timer.prog p (.silabsTimer bits)) s') :
    Ready bits s' ∧ s'.psc = p ∧ Agrees bits s' (aged bits 1 s'.age) := by
  have ht : ∀ s, (Timer.silabsTimer bits).Possible s → (Timer.silabsTimer bits).Possible (tick s) := fun s h => by
    simp only [tick]; split <;> exact h
  obtain ⟨s1, ⟨h0, hr⟩, h⟩ := run_cons (o := .disable) (I := (Timer.silabsTimer bits).Possible) (J := fun s => (Timer.silabsTimer bits).Possible s ∧ s.run = false) ht (fun s h => ⟨h, rfl⟩) h h0
  replace h := run_stopped h hr
  replace h := run_stopped h (by simp [Op.app, hr])
  replace h := run_stopped h (by simp [Op.app, hr])
  obtain ⟨s2, ⟨h0, hr0, hp, hm⟩, h⟩ := run_cons (o := .disable) (I := fun s => (Timer.silabsTimer bits).Possible s ∧ s.psc = p ∧ s.recH = true)
    (J := fun s => (Timer.silabsTimer bits).Possible s ∧ s.run = false ∧ s.psc = p ∧ s.recH = true)
    (fun s h => ⟨ht s h.1, by simp only [tick]; split <;> exact h.2⟩) (fun s h => ⟨h.1, rfl, h.2⟩) h
    (by obtain ⟨h1, h2, h3, h4, h5⟩ := h0; simp [Op.app, hr, Timer.Possible, *])
  obtain ⟨h, hr⟩ := run_quiet [.period (2 ^ bits), .setCnt 1, .halfCmp (2 ^ (bits - 1)), .clear true true true, .ieWrite true true false, .initQueue, .storeZero] (by simp) h hr0
  replace h := run_stopped h hr
  obtain ⟨h1, h2, h3, h4, h5⟩ := h0
  refine almost_unmask (b := .silabsTimer bits) h ?_
  simp only [List.foldl_cons, List.foldl_nil, Op.app, hr0, h5]
  exact ⟨rfl, h1, h2, rfl, h3, rfl, h4, hm, rfl, rfl, rfl, hp, agrees_start (Nat.one_lt_two_pow (show bits ≠ 0 by omega)) rfl rfl rfl (by simp) (by simp)⟩

theorem start_imxrt {p : Nat} {s s' : Hw} (h0 : Timer.Possible .imxrt s) (h : Run s (Timer.prog p .imxrt) s') :
    Ready 32 s' ∧ True ∧ Agrees 32 s' (aged 32 0 s'.age) := by
  have ht : ∀ s, Timer.Possible .imxrt s → Timer.Possible .imxrt (tick s) := fun s h => by
    simp only [tick]; split <;> exact h
  obtain ⟨s1, ⟨h0, hr0⟩, h⟩ := run_cons (o := .disable) (I := Timer.Possible .imxrt) (J := fun s => Timer.Possible .imxrt s ∧ s.run = false) ht (fun s h => ⟨h, rfl⟩) h h0
  obtain ⟨h, hr⟩ := run_quiet [.clear true true true, .enmod true, .period (2 ^ 32), .storeZero, .ieWrite true true true, .halfCmp 0x80000000, .initQueue] (by simp) h hr0
  replace h := run_stopped h hr
  obtain ⟨h1, h2, h3, h4, h5⟩ := h0
  obtain ⟨s2, hj, h⟩ := run_cons (o := .enmod false) (I := Almost .imxrt p) (J := Almost .imxrt p) (fun s => almost_tick) (fun s h => by
    obtain ⟨h1, h2, h3, h4, h5, h6, h7, h8, h9, h10, h11, h12, h13⟩ := h
    exact ⟨h1, h2, h3, h4, h5, h6, h7, h8, h9, h10, h11, trivial, h13⟩) h (by
      simp only [List.foldl_cons, List.foldl_nil, Op.app, hr0]
      exact ⟨rfl, h1, h2, by simp [Timer.bits], h3, by simp [Timer.bits], h4, h5, rfl, rfl, rfl, trivial, agrees_start (by decide) rfl rfl rfl (by simp) (by simp)⟩)
  exact almost_unmask (b := .imxrt) h hj

/-- what has been done by a `_start` that configures a running counter -/
structure Done where
  /-- overflow flag cleared -/
  o : Bool
  /-- half-period flag cleared -/
  h : Bool
  /-- half-period compare register written -/
  c : Bool
  /-- software counter zero -/
  z : Bool
  /-- queue initialised -/
  q : Bool
  /-- interrupts enabled -/
  i : Bool
  /-- events recorded: overflow, half period -/
  r : Bool
  rh : Bool
  /-- unmasked -/
  u : Bool

structure Pre (bits p : Nat) (d : Done) (s : Hw) : Prop where
  run : s.run = true
  clocked : s.clocked = true
  short : s.short = false
  per : s.per = 2 ^ bits
  ovAt : s.ovAt = 0
  psc : s.psc = p
  at0 : s.halfAt = 0 ∨ s.halfAt = 2 ^ (bits - 1)
  low : s.age < 2 ^ (bits - 1) → s.cnt = s.age ∧ (d.o = true → s.ovf = false) ∧ (d.h = true → s.half = false)
  c : d.c = true → s.halfAt = 2 ^ (bits - 1)
  z : d.z = true → s.hp = 0
  q : d.q = true → s.tq = true
  i : d.i = true → s.ieO = true ∧ s.ieH = true
  r : d.r = true → s.recO = true
  rh : d.rh = true → s.recH = true
  u : d.u = true → s.irq = true

theorem pre_tick {bits p : Nat} (hb : 0 < bits) {d : Done} {s : Hw} (h : Pre bits p d s) : Pre bits p d (tick s) := by
  obtain ⟨h1, h2, h3, h4, h5, h6, h7, h8, h9, h10, h11, h12, h13, h14, h15⟩ := h
  have e2 := HalfPeriod.two_pow_pred hb
  have ht : tick s = { s with cnt := if s.per ≤ s.cnt + 1 then 0 else s.cnt + 1, ovf := s.ovf || (s.recO && (if s.per ≤ s.cnt + 1 then 0 else s.cnt + 1) == s.ovAt), half := s.half || (s.recH && (if s.per ≤ s.cnt + 1 then 0 else s.cnt + 1) == s.halfAt), age := s.age + 1 } := by
    simp [tick, h1, h2, h3]
  rw [ht]
  refine ⟨h1, h2, h3, h4, h5, h6, h7, fun hl => ?_, h9, h10, h11, h12, h13, h14, h15⟩
  simp only at hl
  obtain ⟨l1, l2, l3⟩ := h8 (by omega)
  have hc : ¬ s.per ≤ s.age + 1 := by rw [h4]; omega
  simp only [l1, if_neg hc]
  refine ⟨trivial, fun hd => ?_, fun hd => ?_⟩
  · rw [l2 hd, h5]; simp
  · rw [l3 hd]
    have : (s.age + 1 == s.halfAt) = false := by rw [beq_eq_false_iff_ne]; omega
    simp [this]

theorem pre_done {bits p : Nat} (hb : 0 < bits) {d : Done} {s : Hw} (h : Pre bits p d s) (hd : d = ⟨true, true, true, true, true, true, true, true, true⟩) (hs : s.age < 2 ^ (bits - 1)) :
    Ready bits s ∧ s.psc = p ∧ Agrees bits s (aged bits 0 s.age) := by
  subst hd
  obtain ⟨h1, h2, h3, h4, h5, h6, h7, h8, h9, h10, h11, h12, h13, h14, h15⟩ := h
  obtain ⟨l1, l2, l3⟩ := h8 hs
  have e2 := HalfPeriod.two_pow_pred hb
  rw [aged_low (by omega) hb]
  refine ⟨⟨h1, h2, h3, h4, h5, h9 rfl, h13 rfl, h14 rfl, (h12 rfl).1, (h12 rfl).2, h11 rfl, h15 rfl⟩, h6, ?_, h10 rfl, l2 rfl, l3 rfl⟩
  simp only [Nat.zero_add]
  rw [l1, Nat.mod_eq_of_lt (by omega)]

theorem pre_op {bits p : Nat} (hb : 0 < bits) {d : Done} (d' : Done) {o : Op} (hj : ∀ s, Pre bits p d s → Pre bits p d' (o.app s)) {l : List Op} {s s' : Hw} (h : Run s (o :: l) s')
    (hi : Pre bits p d s) : ∃ s1, Pre bits p d' s1 ∧ Run s1 l s' :=
  run_cons (I := Pre bits p d) (J := Pre bits p d') (fun _ => pre_tick hb) hj h hi

local macro "pre_step" : tactic => `(tactic| (rename_i h; obtain ⟨h1, h2, h3, h4, h5, h6, h7, h8, h9, h10, h11, h12, h13, h14, h15⟩ := h; constructor <;> simp_all [Op.app]))

theorem start_nrfTimer {p : Nat} {s s' : Hw} (h0 : Timer.Possible .nrfTimer s) (hc : Timer.Clean .nrfTimer s) (h : Run s (Timer.prog p .nrfTimer) s') (hs : s'.age < 2 ^ 31) :
    Ready 32 s' ∧ s'.psc = p ∧ Agrees 32 s' (aged 32 0 s'.age) := by
  have hb : 0 < 32 := by decide
  obtain ⟨hr0, hk, hsh⟩ := hc
  obtain ⟨hro, hrh, hen⟩ := h0
  obtain ⟨h, hr⟩ := run_quiet [.psc p, .period (2 ^ 32), .ieClear, .ovfCmp 0, .halfCmp 0x80000000, .setCnt 0] (by simp) h hr0
  replace h := run_stopped h hr
  have hi : Pre 32 p ⟨false, false, true, false, false, false, true, true, false⟩ (Op.app ([.psc p, .period (2 ^ 32), .ieClear, .ovfCmp 0, .halfCmp 0x80000000, .setCnt 0].foldl Op.app s) .enable) := by
    simp only [List.foldl_cons, List.foldl_nil, Op.app, hr0, hen]
    constructor <;> simp_all
  obtain ⟨s1, hi, h⟩ := pre_op hb ⟨false, false, true, false, false, false, true, true, false⟩ (fun s _ => by pre_step) h hi
  obtain ⟨s1, hi, h⟩ := pre_op hb ⟨true, false, true, false, false, false, true, true, false⟩ (fun s _ => by pre_step) h hi
  obtain ⟨s1, hi, h⟩ := pre_op hb ⟨true, true, true, false, false, false, true, true, false⟩ (fun s _ => by pre_step) h hi
  obtain ⟨s1, hi, h⟩ := pre_op hb ⟨true, true, true, true, false, false, true, true, false⟩ (fun s _ => by pre_step) h hi
  obtain ⟨s1, hi, h⟩ := pre_op hb ⟨true, true, true, true, true, false, true, true, false⟩ (fun s _ => by pre_step) h hi
  obtain ⟨s1, hi, h⟩ := pre_op hb ⟨true, true, true, true, true, true, true, true, false⟩ (fun s _ => by pre_step) h hi
  obtain ⟨s1, hi, h⟩ := pre_op hb ⟨true, true, true, true, true, true, true, true, true⟩ (fun s _ => by pre_step) h hi
  exact pre_done hb (run_nil (I := Pre 32 p _) (fun _ => pre_tick hb) h hi) rfl hs

theorem start_nrfRtc {p : Nat} {s s' : Hw} (h0 : Timer.Possible .nrfRtc s) (hc : Timer.Clean .nrfRtc s) (h : Run s (Timer.prog p .nrfRtc) s') (hs : s'.age < 2 ^ 23) :
    Ready 24 s' ∧ s'.psc = 0 ∧ Agrees 24 s' (aged 24 0 s'.age) := by
  have hb : 0 < 24 := by decide
  have hr0 : s.run = false := hc
  obtain ⟨hk, hsh, hper, hov, hen⟩ := h0
  obtain ⟨h, hr⟩ := run_quiet [.psc 0, .ieClear, .halfCmp 0x800000, .setCnt 0] (by simp) h hr0
  replace h := run_stopped h hr
  have hi : Pre 24 0 ⟨false, false, true, false, false, false, false, false, false⟩ (Op.app ([.psc 0, .ieClear, .halfCmp 0x800000, .setCnt 0].foldl Op.app s) .enable) := by
    simp only [List.foldl_cons, List.foldl_nil, Op.app, hr0, hen]
    constructor <;> simp_all
  obtain ⟨s1, hi, h⟩ := pre_op hb ⟨true, false, true, false, false, false, false, false, false⟩ (fun s _ => by pre_step) h hi
  obtain ⟨s1, hi, h⟩ := pre_op hb ⟨true, false, true, false, false, false, false, false, false⟩ (fun s _ => by pre_step) h hi
  obtain ⟨s1, hi, h⟩ := pre_op hb ⟨true, true, true, false, false, false, false, false, false⟩ (fun s _ => by pre_step) h hi
  obtain ⟨s1, hi, h⟩ := pre_op hb ⟨true, true, true, true, false, false, false, false, false⟩ (fun s _ => by pre_step) h hi
  obtain ⟨s1, hi, h⟩ := pre_op hb ⟨true, true, true, true, true, false, false, false, false⟩ (fun s _ => by pre_step) h hi
  obtain ⟨s1, hi, h⟩ := pre_op hb ⟨true, true, true, true, true, true, false, false, false⟩ (fun s _ => by pre_step) h hi
  obtain ⟨s1, hi, h⟩ := pre_op hb ⟨true, true, true, true, true, true, true, true, false⟩ (fun s _ => by pre_step) h hi
  obtain ⟨s1, hi, h⟩ := pre_op hb ⟨true, true, true, true, true, true, true, true, true⟩ (fun s _ => by pre_step) h hi
  exact pre_done hb (run_nil (I := Pre 24 0 _) (fun _ => pre_tick hb) h hi) rfl hs

theorem start_rtcc {p : Nat} {s s' : Hw} (h0 : Timer.Possible .rtcc s) (hc : Timer.Clean .rtcc s) (h : Run s (Timer.prog p .rtcc) s') (hs : s'.age < 2 ^ 31) :
    Ready 32 s' ∧ True ∧ Agrees 32 s' (aged 32 0 s'.age) := by
  have hb : 0 < 32 := by decide
  obtain ⟨hr0, hcnt, hat, hov, hha, hhp, hag⟩ := hc
  obtain ⟨hk, hsh, hper, hoa, hro, hen⟩ := h0
  replace h := run_stopped h hr0
  have hi : Pre 32 s.psc ⟨true, true, false, true, false, false, true, false, false⟩ (Op.app s .enable) := by
    simp only [Op.app, hr0, hen]
    constructor <;> simp_all
  obtain ⟨s1, hi, h⟩ := pre_op hb ⟨true, true, false, true, false, true, true, false, false⟩ (fun s _ => by pre_step) h hi
  obtain ⟨s1, hi, h⟩ := pre_op hb ⟨true, true, false, true, false, true, true, true, false⟩ (fun s _ => by pre_step) h hi
  obtain ⟨s1, hi, h⟩ := pre_op hb ⟨true, true, true, true, false, true, true, true, false⟩ (fun s _ => by pre_step) h hi
  obtain ⟨s1, hi, h⟩ := pre_op hb ⟨true, true, true, true, true, true, true, true, false⟩ (fun s _ => by pre_step) h hi
  obtain ⟨s1, hi, h⟩ := pre_op hb ⟨true, true, true, true, true, true, true, true, true⟩ (fun s _ => by pre_step) h hi
  have hd := pre_done hb (run_nil (I := Pre 32 _ _) (fun _ => pre_tick hb) h hi) rfl hs
  exact ⟨hd.1, trivial, hd.2.2⟩

/-! ## C108 -/

/-- **C108** STM32 timers, Silabs TIMER and i.MX RT GPT: whatever state the peripheral is in when the monotonic is started — running or not, with any counter value, compare registers, flags, interrupt enables
and prescaler — and however its clock advances between the accesses of the start function, afterwards it runs through all its values at the requested prescaler, overflow and half period are recorded and raise
the interrupt, and counter, flags and half-period counter are those of the clock of C32, started with the value 1 (i.MX RT: 0). -/
theorem C108_start_known_state {b : Timer} (hb : 0 < b.bits) (hl : b.live = false) {p : Nat} {s s' : Hw} (h0 : b.Possible s) (h : Run s (b.prog p) s') :
    Ready b.bits s' ∧ b.RateOk p s' ∧ Agrees b.bits s' (aged b.bits b.first s'.age) := by
  cases b with
  | stm32 bits => exact start_stm32 hb h0 h
  | silabsTimer bits => exact start_silabsTimer hb h0 h
  | imxrt => exact start_imxrt h0 h
  | nrfTimer => cases hl
  | nrfRtc => cases hl
  | rtcc => cases hl

/-- **C108** (partial) The same for all timers, if nRF TIMER and RTC are stopped before (TIMER: in timer mode, without shorts), and the RTCC as after a reset, and — for these — the start function takes less than half a period.
Missing: any previous state for these three, see the witnesses below. -/
theorem C108_start_known_state_partial {b : Timer} (hb : 0 < b.bits) {p : Nat} {s s' : Hw} (h0 : b.Possible s) (hc : b.Clean s) (h : Run s (b.prog p) s')
    (hs : b.live = true → s'.age < 2 ^ (b.bits - 1)) :
    Ready b.bits s' ∧ b.RateOk p s' ∧ Agrees b.bits s' (aged b.bits b.first s'.age) := by
  cases b with
  | stm32 bits => exact start_stm32 hb h0 h
  | silabsTimer bits => exact start_silabsTimer hb h0 h
  | imxrt => exact start_imxrt h0 h
  | nrfTimer => exact start_nrfTimer h0 hc h (hs rfl)
  | nrfRtc => exact start_nrfRtc h0 hc h (hs rfl)
  | rtcc => exact start_rtcc h0 hc h (hs rfl)

theorem after_agrees {bits : Nat} {o : Order} (evs : List Ev) : ∀ {s : Hw} {h : HalfPeriod.St}, Ready bits s → Agrees bits s h →
    Ready bits (after o s evs) ∧ Agrees bits (after o s evs) (HalfPeriod.run bits o h evs) := by
  induction evs with
  | nil => exact fun hr ha => ⟨hr, ha⟩
  | cons e evs ih =>
    intro s h hr ha
    cases e with
    | tick => exact ih (ready_tick hr) (tick_agrees hr.run hr.clocked hr.short hr.per hr.ovAt hr.halfAt hr.recO hr.recH ha)
    | service => exact ih (ready_service hr) (service_agrees ha)

theorem run_append (bits : Nat) (o : Order) (s : HalfPeriod.St) (a c : List Ev) : HalfPeriod.run bits o s (a ++ c) = HalfPeriod.run bits o (HalfPeriod.run bits o s a) c := by
  simp [HalfPeriod.run, List.foldl_append]

theorem aged_order (bits t0 : Nat) (o : Order) (n : Nat) : aged bits t0 n = HalfPeriod.run bits o (HalfPeriod.start t0) (List.replicate n .tick) := by
  induction n with
  | zero => rfl
  | succ n ih => rw [aged_succ, ih]; simp [HalfPeriod.run, List.replicate_succ', List.foldl_append, HalfPeriod.stepEv]

theorem run_t {bits : Nat} {o : Order} (evs : List Ev) : ∀ (s : HalfPeriod.St), (HalfPeriod.run bits o s evs).t = s.t + evs.count .tick := by
  induction evs with
  | nil => intro s; rfl
  | cons e evs ih =>
    intro s
    cases e with
    | tick => exact (ih (HalfPeriod.tickStep bits s)).trans (by simp [HalfPeriod.tickStep]; omega)
    | service =>
      refine (ih (HalfPeriod.service o s)).trans ?_
      have : (HalfPeriod.service o s).t = s.t := by
        cases o <;> simp only [HalfPeriod.service, HalfPeriod.serviceOvf, HalfPeriod.serviceHalf] <;> (repeat' split) <;> rfl
      rw [this]; simp

theorem first_lt {b : Timer} (hb : 1 < b.bits) : b.first < 2 ^ (b.bits - 1) := by
  have h1 : 1 < 2 ^ (b.bits - 1) := Nat.one_lt_two_pow (by omega)
  cases b <;> simp only [Timer.first] <;> first | exact h1 | exact Nat.two_pow_pos _

theorem timely_service {bits : Nat} (evs : List Ev) : ∀ (t : Nat) (f : Bool), HalfPeriod.Timely bits t f evs → HalfPeriod.Timely bits t f (evs ++ [.service]) := by
  induction evs with
  | nil => intro t f _; simp [HalfPeriod.Timely]
  | cons e evs ih =>
    intro t f h
    cases e with
    | tick =>
      simp only [List.cons_append, HalfPeriod.Timely] at h ⊢
      split at h
      · rename_i hm; rw [if_pos hm]; exact ⟨h.1, ih _ _ h.2⟩
      · rename_i hm; rw [if_neg hm]; exact ih _ _ h
    | service => exact ih _ _ h

/-! ### The interrupt of the delays -/

/-- The back ends whose `enable_timer` is the empty default (`rtic-time/src/timer_queue/backend.rs`): all but STM32 (`stm32.rs:403-405`, `:546-548`) and Silabs TIMER (`silabs/timer.rs:403-405`), which enable the interrupt of the
compare register for delays as soon as there is one. -/
def Timer.alwaysOn : Timer → Bool
  | .stm32 _ => false
  | .silabsTimer _ => false
  | _ => true

/-- a register that the clock does not change and that each access changes in a way that depends on its own value only -/
theorem run_reg {α : Type} {f : Hw → α} {g : Op → α → α} (ht : ∀ s, f (tick s) = f s) (hg : ∀ o s, f (o.app s) = g o (f s)) {p : List Op} {s s' : Hw} (h : Run s p s') : f s' = p.foldl (fun x o => g o x) (f s) := by
  induction h with
  | done s => rfl
  | tick h ih => rw [ih, ht]
  | op h ih => rw [ih, hg]; rfl

/-- **C108** (all timers, any previous state, any ticks in between) After the start function the interrupt of the timer is unmasked and the queue initialised, and the interrupt of the compare register for delays is enabled exactly if nothing enables it later: otherwise no delay would ever end, or, with an empty queue,
each match would raise the interrupt. -/
theorem C108_delay_interrupt {b : Timer} {p : Nat} {s s' : Hw} (h : Run s (b.prog p) s') : s'.irq = true ∧ s'.tq = true ∧ s'.ieD = b.alwaysOn := by
  have h1 := run_reg (f := Hw.irq) (g := fun o x => match o with | .unmask => true | _ => x) (fun s => by simp only [tick]; split <;> rfl) (fun o s => by cases o <;> simp only [Op.app] <;> (repeat' split) <;> rfl) h
  have h2 := run_reg (f := Hw.tq) (g := fun o x => match o with | .initQueue => true | _ => x) (fun s => by simp only [tick]; split <;> rfl) (fun o s => by cases o <;> simp only [Op.app] <;> (repeat' split) <;> rfl) h
  have h3 := run_reg (f := Hw.ieD) (g := fun o x => match o with | .reset _ => false | .ieSet _ _ d => x || d | .ieWrite _ _ d => d | .ieClear => false | _ => x) (fun s => by simp only [tick]; split <;> rfl)
    (fun o s => by cases o <;> simp only [Op.app] <;> (repeat' split) <;> rfl) h
  refine ⟨by rw [h1]; cases b <;> rfl, by rw [h2]; cases b <;> rfl, ?_⟩
  rw [h3]
  cases b <;> simp [Timer.prog, Timer.alwaysOn]

/-- its hypothesis is met by all timers, from any state -/
example (b : Timer) (p : Nat) (s : Hw) : ∃ s', Run s (b.prog p) s' := by
  suffices h : ∀ (l : List Op) (s : Hw), ∃ s', Run s l s' from h _ s
  intro l
  induction l with
  | nil => exact fun s => ⟨s, .done s⟩
  | cons o l ih => exact fun s => (ih (o.app s)).imp fun _ h => .op h

/-- **C108 + C31 + C32** The time read from the counter register and the half-period counter at any later moment is exactly the number of ticks since the counter was given its first value (plus that value), if the interrupt handler
has run between any two half-period marks since; and the handler's assertions hold. -/
theorem C108_clock_exact {m : Nat} {b : Timer} (hb : 1 < b.bits) {o : Order} {p : Nat} {s s' : Hw} (h0 : b.Possible s) (hc : b.Clean s) (h : Run s (b.prog p) s')
    (hs : b.live = true → s'.age < 2 ^ (b.bits - 1)) (evs : List Ev) (hevs : HalfPeriod.Timely b.bits b.first true (List.replicate s'.age .tick ++ evs))
    (hfit : b.first + s'.age + evs.count .tick < 2 ^ m) :
    (calculateNow b.bits (BitVec.ofNat m (after o s' evs).hp) (BitVec.ofNat m (after o s' evs).cnt)).toNat = b.first + s'.age + evs.count .tick ∧
    panics o (after o s' evs) = false := by
  obtain ⟨hr, -, ha⟩ := C108_start_known_state_partial (by omega) h0 hc h hs
  obtain ⟨hr2, ha2⟩ := after_agrees (o := o) evs hr ha
  rw [aged_order b.bits b.first o, ← run_append] at ha2
  have hsync := HalfPeriod.C32_bookkeeping_in_sync (by omega) o b.first (first_lt hb) _ hevs
  have hT : (HalfPeriod.run b.bits o (HalfPeriod.start b.first) (List.replicate s'.age .tick ++ evs)).t = b.first + s'.age + evs.count .tick := by
    rw [run_t]; simp [HalfPeriod.start, Nat.add_assoc]
  constructor
  · have := HalfPeriod.C32_clock_exact (m := m) (by omega) o b.first (first_lt hb) _ hevs (by rw [hT]; exact hfit)
    simp only at this
    rw [ha2.2.1, ha2.1, this, hT]
  · have hevs2 : HalfPeriod.Timely b.bits b.first true ((List.replicate s'.age .tick ++ evs) ++ [.service]) := timely_service _ _ _ hevs
    have h2 := (HalfPeriod.C32_bookkeeping_in_sync (by omega) o b.first (first_lt hb) _ hevs2).1
    rw [run_append] at h2
    rw [panics_agrees ha2 hsync.1]
    exact h2

/-! ### Cases, and what goes wrong without the conditions -/

/-- an execution in which the clock does not advance -/
theorem run_ops : ∀ (p : List Op) (s : Hw), Run s p (p.foldl Op.app s)
  | [], s => .done s
  | o :: p, s => .op (run_ops p (o.app s))

/-- a timer left behind by somebody else: running, all flags pending, all interrupts enabled -/
def dirty : Hw :=
  { run := true, clocked := true, short := false, psc := 7, pscNext := 7, cnt := 12345, per := 20000, ovAt := 0, halfAt := 77, recO := true, recH := true, ovf := true, half := true, dyn := true,
    ieO := true, ieH := true, ieD := true, enmod := false, hp := 5, tq := false, irq := false, age := 0 }

/-- one after a reset -/
def fresh (per : Nat) : Hw :=
  { run := false, clocked := true, short := false, psc := 0, pscNext := 0, cnt := 0, per := per, ovAt := 0, halfAt := 0, recO := true, recH := true, ovf := false, half := false, dyn := false,
    ieO := false, ieH := false, ieD := false, enmod := false, hp := 0, tq := false, irq := false, age := 0 }

example : (Timer.stm32 16).Possible dirty ∧ (Timer.silabsTimer 16).Possible dirty ∧ Timer.imxrt.Possible dirty := by simp [Timer.Possible, dirty]
example : (Timer.nrfTimer).Possible (fresh 65536) ∧ (Timer.nrfTimer).Clean (fresh 65536) ∧ (Timer.nrfRtc).Possible (fresh (2 ^ 24)) ∧ (Timer.nrfRtc).Clean (fresh (2 ^ 24)) ∧
    (Timer.rtcc).Possible (fresh (2 ^ 32)) ∧ (Timer.rtcc).Clean (fresh (2 ^ 32)) := by simp [Timer.Possible, Timer.Clean, fresh]
/-- the STM32 timer was running: four ticks before the reset, three after the start -/
example : ∃ s', Run dirty (Timer.prog 9 (.stm32 16)) s' ∧ s'.age = 3 ∧ s'.cnt = 4 ∧ s'.hp = 0 ∧ s'.ovf = false ∧ s'.half = false ∧ s'.psc = 9 ∧ s'.halfAt = 32768 :=
  ⟨_, .tick (.tick (.tick (.tick (.op (.op (.op (.op (.op (.op (.op (.op (.op (.op (.op (.op (.tick (.tick (.op (.tick (.done _)))))))))))))))))))), by decide⟩

/-- **C108** (violated, RTCC) The RTCC is running when the monotonic is started, in the second half of its period (any other user of the peripheral, e.g. a boot loader, leaves it so): the half-period counter starts
at zero although the counter does not, and the first overflow interrupt panics. -/
theorem C108_rtcc_running_violated : ∃ s s' p, Timer.rtcc.Possible s ∧ s.ovf = false ∧ s.half = false ∧ s.hp = 0 ∧ Run s (Timer.rtcc.prog p) s' ∧
    panics .halfFirst (after .halfFirst s' [.tick]) = true :=
  ⟨{ fresh (2 ^ 32) with run := true, cnt := 2 ^ 32 - 1 }, _, 0, by simp [Timer.Possible, fresh], rfl, rfl, rfl, run_ops _ _, by decide⟩

/-- **C108** (violated, RTCC) The RTCC is stopped at zero, but the flag of its compare channel 1 is pending from an earlier use: the first interrupt advances the time by a full period of `2^32` ticks. -/
theorem C108_rtcc_flag_violated : ∃ s s' p, Timer.rtcc.Possible s ∧ s.run = false ∧ s.cnt = 0 ∧ s.hp = 0 ∧ Run s (Timer.rtcc.prog p) s' ∧ s'.age = 0 ∧
    (calculateNow 32 (BitVec.ofNat 64 (after .halfFirst s' [.service]).hp) (BitVec.ofNat 64 (after .halfFirst s' [.service]).cnt)).toNat = 2 ^ 32 :=
  ⟨{ fresh (2 ^ 32) with half := true }, _, 0, by simp [Timer.Possible, fresh], rfl, rfl, rfl, run_ops _ _, by decide, by decide⟩

/-- **C108** (violated, nRF RTC and TIMER) If the counter is running when the monotonic is started, the prescaler written has no effect: the clock keeps the previous rate. -/
theorem C108_nrf_rate_violated : ∃ s s' t t', Timer.nrfRtc.Possible s ∧ Run s (Timer.nrfRtc.prog 0) s' ∧ ¬ Timer.nrfRtc.RateOk 0 s' ∧
    Timer.nrfTimer.Possible t ∧ Run t (Timer.nrfTimer.prog 4) t' ∧ ¬ Timer.nrfTimer.RateOk 4 t' :=
  ⟨{ fresh (2 ^ 24) with run := true, psc := 31 }, _, { fresh (2 ^ 32) with run := true, psc := 9 }, _, by simp [Timer.Possible, fresh], run_ops _ _, by simp only [Timer.RateOk]; decide,
    by simp [Timer.Possible, fresh], run_ops _ _, by simp only [Timer.RateOk]; decide⟩

theorem tick_low {s : Hw} (h : s.short = true ∧ s.halfAt = 2 ^ 31 ∧ s.cnt < 2 ^ 31) : (tick s).short = true ∧ (tick s).halfAt = 2 ^ 31 ∧ (tick s).cnt < 2 ^ 31 := by
  obtain ⟨h1, h2, h3⟩ := h
  simp only [tick]
  split
  · refine ⟨h1, h2, ?_⟩
    simp only [h1, h2, Bool.true_and]
    split <;> split <;> rename_i ha hb
    · decide
    · omega
    · decide
    · simp only [beq_iff_eq] at hb; omega
  · exact ⟨h1, h2, h3⟩

theorem service_keeps (o : Order) (s : Hw) : (service o s).short = s.short ∧ (service o s).halfAt = s.halfAt ∧ (service o s).cnt = s.cnt ∧ (service o s).clocked = s.clocked := by
  cases o <;> simp only [service, serviceO, serviceH] <;> (repeat' split) <;> exact ⟨rfl, rfl, rfl, rfl⟩

/-- **C108** (violated, nRF TIMER) The stopped TIMER is in counter mode, or has the short that clears it on a match of compare register 2, when the monotonic is started: neither is reset, so the clock never advances, or its counter never
leaves the first half of its range and no overflow follows the half-period. -/
theorem C108_nrf_timer_mode_violated :
    (∃ s s', Timer.nrfTimer.Possible s ∧ s.run = false ∧ s.short = false ∧ Run s (Timer.nrfTimer.prog 4) s' ∧ ∀ n, (after .overflowFirst s' (List.replicate n .tick)).cnt = 0) ∧
    (∃ s s', Timer.nrfTimer.Possible s ∧ s.run = false ∧ s.clocked = true ∧ Run s (Timer.nrfTimer.prog 4) s' ∧ ∀ evs, (after .overflowFirst s' evs).cnt < 2 ^ 31) := by
  refine ⟨⟨{ fresh (2 ^ 32) with clocked := false }, _, by simp [Timer.Possible, fresh], rfl, rfl, run_ops _ _, fun n => ?_⟩,
    ⟨{ fresh (2 ^ 32) with short := true }, _, by simp [Timer.Possible, fresh], rfl, rfl, run_ops _ _, fun evs => ?_⟩⟩
  · have : ∀ n (s : Hw), s.clocked = false → s.cnt = 0 → (after .overflowFirst s (List.replicate n .tick)).cnt = 0 := by
      intro n
      induction n with
      | zero => exact fun s _ h => h
      | succ n ih => exact fun s hk hc => ih (tick s) (by simp [tick, hk]) (by simp [tick, hk, hc])
    exact this n _ (by decide) (by decide)
  · have : ∀ (evs : List Ev) (s : Hw), s.short = true ∧ s.halfAt = 2 ^ 31 ∧ s.cnt < 2 ^ 31 → (after .overflowFirst s evs).cnt < 2 ^ 31 := by
      intro evs
      induction evs with
      | nil => exact fun s h => h.2.2
      | cons e evs ih =>
        intro s h
        cases e with
        | tick => exact ih (tick s) (tick_low h)
        | service =>
          obtain ⟨e1, e2, e3, -⟩ := service_keeps .overflowFirst s
          exact ih (service .overflowFirst s) (by rw [e1, e2, e3]; exact h)
    exact this evs _ (by decide)

end Verif.TimerStart
