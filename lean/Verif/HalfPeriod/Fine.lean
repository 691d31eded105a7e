import Verif.HalfPeriod.Props

/-!
# The half-period clock at the granularity of single register accesses

`Verif.HalfPeriod.Model` treats a run of the interrupt handler, and a call of `now`, as one step. Here the handler can be preempted between any two of its accesses (by higher-priority
tasks that read the clock), the timer counts at any moment, and `calculate_now` reads the half-period counter and the timer in two steps.
-/

namespace Verif.HalfPeriod.Fine

/-- The two flags of the timer: overflow of the full period, and half period. -/
inductive Flag where
  | ovf
  | half
deriving DecidableEq, Repr

/-- Accesses of `on_interrupt`. -/
inductive Mi where
  /-- read flag `k` into a local -/
  | test (k : Flag)
  /-- read the flag register into a local -/
  | snap
  /-- if the local has `k`: clear flag `k` -/
  | clear (k : Flag)
  /-- if the local has `k`: increment the counter, and check the parity of the previous value (`assert!(!prev.is_multiple_of(2))` for overflow, `assert!(prev.is_multiple_of(2))` for half) -/
  | add (k : Flag)
deriving DecidableEq, Repr

/-- The `on_interrupt` functions. -/
inductive Handler where
  /-- `stm32.rs:411-430`, `nrf/rtc.rs:269-281`, `nrf/timer.rs:309-325` -/
  | stm32Nrf
  /-- `imxrt.rs:242-258` -/
  | imxrt
  /-- `silabs/timer.rs:411-432` -/
  | silabsTimer
  /-- `silabs/rtcc.rs:141-165`, `silabs/letimer.rs:166-190` -/
  | silabsHalfFirst
deriving DecidableEq, Repr

def Handler.prog : Handler → List Mi
  | .stm32Nrf => [.test .ovf, .clear .ovf, .add .ovf, .test .half, .clear .half, .add .half]
  | .imxrt => [.snap, .add .ovf, .clear .ovf, .add .half, .clear .half]
  | .silabsTimer => [.snap, .clear .ovf, .add .ovf, .clear .half, .add .half]
  | .silabsHalfFirst => [.snap, .clear .half, .add .half, .clear .ovf, .add .ovf]

structure St where
  /-- true number of ticks (the hardware counter is `t % 2^bits`) -/
  t : Nat
  /-- the software half-period counter -/
  hp : Nat
  ovf : Bool
  half : Bool
  /-- locals of the handler -/
  lo : Bool
  lh : Bool
  /-- what the handler has still to do; empty: not running -/
  pg : List Mi
  /-- a `now()` is inside its critical section and has read this value of the half-period counter, `half_period_counter.rs:207-212` -/
  rd : Option Nat
  panicked : Bool
deriving DecidableEq, Repr

inductive Ev where
  | tick
  /-- the interrupt handler is entered -/
  | enter
  /-- the handler makes its next access -/
  | hgo
  /-- a `now()` enters its critical section and reads the half-period counter -/
  | readHp
  /-- it reads the timer and leaves the critical section -/
  | readVal
deriving DecidableEq, Repr

/-- One access of the handler. -/
def access (s : St) : Mi → St
  | .test .ovf => { s with lo := s.ovf }
  | .test .half => { s with lh := s.half }
  | .snap => { s with lo := s.ovf, lh := s.half }
  | .clear .ovf => if s.lo then { s with ovf := false } else s
  | .clear .half => if s.lh then { s with half := false } else s
  | .add .ovf => if s.lo then { s with hp := s.hp + 1, panicked := s.panicked || (s.hp % 2 == 0) } else s
  | .add .half => if s.lh then { s with hp := s.hp + 1, panicked := s.panicked || (s.hp % 2 != 0) } else s

/-- One step; the result of a finished `now()` comes with the true time at which it read the timer. Interrupts do not run inside the critical section of `now()` (the timer does). -/
def step (m bits : Nat) (h : Handler) (s : St) : Ev → Option (St × List (BitVec m × Nat))
  -- as `HalfPeriod.tickStep`
  | .tick =>
    some ({ s with t := s.t + 1, ovf := s.ovf || ((s.t + 1) % 2 ^ bits == 0), half := s.half || ((s.t + 1) % 2 ^ bits == 2 ^ (bits - 1)) }, [])
  | .enter => if s.pg = [] ∧ s.rd = none then some ({ s with pg := h.prog }, []) else none
  | .hgo =>
    match s.rd, s.pg with
    | none, x :: p => some ({ access s x with pg := p }, [])
    | _, _ => none
  | .readHp => if s.rd = none then some ({ s with rd := some s.hp }, []) else none
  | .readVal =>
    match s.rd with
    | some hp => some ({ s with rd := none }, [(calculateNow bits (BitVec.ofNat m hp) (BitVec.ofNat m (s.t % 2 ^ bits)), s.t)])
    | none => none

def exec (m bits : Nat) (h : Handler) (s : St) : List Ev → Option (St × List (BitVec m × Nat))
  | [] => some (s, [])
  | a :: as =>
    match step m bits h s a with
    | none => none
    | some (s1, e) =>
      match exec m bits h s1 as with
      | none => none
      | some (s2, es) => some (s2, e ++ es)

def start (t0 : Nat) : St :=
  { t := t0, hp := 0, ovf := false, half := false, lo := false, lh := false, pg := [], rd := none, panicked := false }

/-! ## Specification of the schedule -/

/-- The schedule serves the timer in time: between any two consecutive half-period marks (multiples of `2^(bits-1)`), a run of the handler is entered and finished. `served`: such a run has been finished since the last mark (or there was no mark yet);
`since`: the present run was entered after the last mark; `k`: number of accesses it has still to make; `n`: number of accesses of a run. -/
def Timely (bits n : Nat) (t : Nat) (served since : Bool) (k : Nat) : List Ev → Prop
  | [] => True
  | .tick :: evs => if (t + 1) % 2 ^ (bits - 1) = 0 then served = true ∧ Timely bits n (t + 1) false false k evs else Timely bits n (t + 1) served since k evs
  | .enter :: evs => Timely bits n t served true n evs
  | .hgo :: evs => Timely bits n t (served || (since && k == 1)) since (k - 1) evs
  | .readHp :: evs | .readVal :: evs => Timely bits n t served since k evs

/-! ## Invariant

The part of the invariant about flags, locals and program is a Boolean condition `Cond` on finitely many values; that an access of the handler preserves it is checked for every handler, every position in it and every value
(the whole domain). The arithmetic part is proved for every width and time. -/

/-- flags, locals, parity of the half-period counter, and whether it lags by one -/
structure Ab where
  ovf : Bool
  half : Bool
  lo : Bool
  lh : Bool
  /-- the half-period counter is even -/
  even : Bool
  lag : Bool
deriving DecidableEq, Repr

def Ab.flag (a : Ab) : Flag → Bool
  | .ovf => a.ovf
  | .half => a.half

def Ab.loc (a : Ab) : Flag → Bool
  | .ovf => a.lo
  | .half => a.lh

/-- the flag will still be read -/
def untested (p : List Mi) (k : Flag) : Bool := p.contains (.test k) || p.contains .snap

/-- the handler will increment the counter for `k` -/
def Ab.owed (a : Ab) (p : List Mi) (k : Flag) : Bool := a.loc k && p.contains (.add k) && !untested p k

/-- the handler will clear `k` -/
def Ab.clr (a : Ab) (p : List Mi) (k : Flag) : Bool := a.loc k && p.contains (.clear k) && !untested p k

/-- the kind of the mark that the counter has not counted yet -/
def Ab.due (a : Ab) : Flag := if a.even then .half else .ovf

def Flag.other : Flag → Flag
  | .ovf => .half
  | .half => .ovf

def imp (a b : Bool) : Bool := !a || b

def all (f : Flag → Bool) : Bool := f .ovf && f .half

def Cond (a : Ab) (p : List Mi) (served since : Bool) : Bool :=
  (if a.lag then
      !served && (a.flag a.due || a.owed p a.due) && imp (a.flag a.due && a.owed p a.due) (a.clr p a.due) && !a.flag a.due.other && !a.owed p a.due.other && !a.clr p a.due.other && imp (a.clr p a.due) (a.owed p a.due)
    else all (fun k => !a.owed p k && imp (a.flag k) (a.clr p k)))
  && imp served (all fun k => !a.flag k && !a.owed p k && !a.clr p k)
  && imp since (all fun k => imp (a.flag k) (untested p k || a.clr p k))

def Ab.access (a : Ab) : Mi → Ab
  | .test .ovf => { a with lo := a.ovf }
  | .test .half => { a with lh := a.half }
  | .snap => { a with lo := a.ovf, lh := a.half }
  | .clear .ovf => if a.lo then { a with ovf := false } else a
  | .clear .half => if a.lh then { a with half := false } else a
  | .add .ovf => if a.lo then { a with even := !a.even, lag := false } else a
  | .add .half => if a.lh then { a with even := !a.even, lag := false } else a

/-- an increment happens only when a mark of that kind is due -/
def Ab.safe (a : Ab) : Mi → Bool
  | .add .ovf => imp a.lo (a.lag && !a.even)
  | .add .half => imp a.lh (a.lag && a.even)
  | _ => true

def goOk (p : List Mi) (a : Ab) (served since : Bool) : Bool :=
  match p with
  | [] => true
  | x :: q => imp (Cond a (x :: q) served since) (a.safe x && Cond (a.access x) q (served || (since && (x :: q).length == 1)) since)

theorem goOk_all (h : Handler) (i : Fin 6) (a b c d e f g k : Bool) : goOk (h.prog.drop i) ⟨a, b, c, d, e, f⟩ g k = true := by
  revert i a b c d e f g k
  cases h <;> decide +kernel

theorem enterOk (h : Handler) (a b c d e f g k : Bool) :
    imp (Cond ⟨a, b, c, d, e, f⟩ [] g k) (Cond ⟨a, b, c, d, e, f⟩ h.prog g true) = true := by
  revert a b c d e f g k
  cases h <;> decide +kernel

/-- a mark -/
theorem markOk (h : Handler) (i : Fin 7) (a b c d e f k : Bool) :
    imp (Cond ⟨a, b, c, d, e, f⟩ (h.prog.drop i) true k)
      (!f && Cond ⟨a || !e, b || e, c, d, e, true⟩ (h.prog.drop i) false false) = true := by
  revert i a b c d e f k
  cases h <;> decide +kernel

def abs (s : St) (lag : Bool) : Ab := ⟨s.ovf, s.half, s.lo, s.lh, s.hp % 2 == 0, lag⟩

structure Inv (bits : Nat) (h : Handler) (s : St) (served since : Bool) (lag : Bool) : Prop where
  ok : s.panicked = false
  pg : ∃ i : Fin 7, s.pg = h.prog.drop i
  rd : ∀ v, s.rd = some v → v = s.hp
  sync : s.hp + lag.toNat = s.t / 2 ^ (bits - 1)
  cond : Cond (abs s lag) s.pg served since = true

theorem of_imp {a b : Bool} (h : imp a b = true) (ha : a = true) : b = true := by
  subst ha; simpa [imp] using h

theorem parity_succ (n : Nat) : ((n + 1) % 2 == 0) = !(n % 2 == 0) := by
  rcases Nat.mod_two_eq_zero_or_one n with h | h
  · have : (n + 1) % 2 = 1 := by omega
    rw [h, this]; rfl
  · have : (n + 1) % 2 = 0 := by omega
    rw [h, this]; rfl

theorem drop_index {h : Handler} {i : Fin 7} {x : Mi} {q : List Mi} (hp : x :: q = h.prog.drop i) :
    ∃ j : Fin 6, j.val = i.val ∧ q = h.prog.drop (i.val + 1) := by
  obtain ⟨i, hi⟩ := i
  have hl : h.prog.length ≤ 6 := by cases h <;> decide
  have h1 : (x :: q).length = (h.prog.drop i).length := by rw [hp]
  simp only [List.length_cons, List.length_drop] at h1
  refine ⟨⟨i, by omega⟩, rfl, ?_⟩
  have h2 : (x :: q).tail = (h.prog.drop i).tail := by rw [hp]
  simpa using h2

theorem abs_access {s : St} {lag : Bool} {x : Mi} (hs : (abs s lag).safe x = true) (hok : s.panicked = false) :
    ∃ lag', abs (access s x) lag' = (abs s lag).access x ∧ (access s x).panicked = false ∧ (access s x).hp + lag'.toNat = s.hp + lag.toNat := by
  rcases s with ⟨t, hp, ovf, half, lo, lh, pg, rd, pan⟩
  simp only at hok
  subst hok
  rcases x with ⟨_ | _⟩ | _ | ⟨_ | _⟩ | ⟨_ | _⟩
  · exact ⟨lag, rfl, rfl, rfl⟩
  · exact ⟨lag, rfl, rfl, rfl⟩
  · exact ⟨lag, rfl, rfl, rfl⟩
  · cases lo
    · exact ⟨lag, rfl, rfl, rfl⟩
    · exact ⟨lag, rfl, rfl, rfl⟩
  · cases lh
    · exact ⟨lag, rfl, rfl, rfl⟩
    · exact ⟨lag, rfl, rfl, rfl⟩
  · cases lo
    · exact ⟨lag, rfl, rfl, rfl⟩
    · simp [abs, Ab.safe, imp] at hs
      obtain ⟨h1, h2⟩ := hs
      subst h1
      refine ⟨false, ?_, ?_, ?_⟩
      · simp [abs, access, Ab.access, parity_succ]
      · simp [access, h2]
      · simp [access]
  · cases lh
    · exact ⟨lag, rfl, rfl, rfl⟩
    · simp [abs, Ab.safe, imp] at hs
      obtain ⟨h1, h2⟩ := hs
      subst h1
      refine ⟨false, ?_, ?_, ?_⟩
      · simp [abs, access, Ab.access, parity_succ]
      · simp [access, h2]
      · simp [access]

theorem access_frame (s : St) (x : Mi) : (access s x).t = s.t ∧ (access s x).rd = s.rd := by
  rcases x with ⟨_ | _⟩ | _ | ⟨_ | _⟩ | ⟨_ | _⟩ <;> unfold access <;> (try dsimp only) <;> (try split) <;> exact ⟨rfl, rfl⟩

theorem tick_bits {bits : Nat} (hb : 0 < bits) (t : Nat) :
    if (t + 1) % 2 ^ (bits - 1) = 0 then
      (t + 1) / 2 ^ (bits - 1) = t / 2 ^ (bits - 1) + 1 ∧ ((t + 1) % 2 ^ bits == 0) = !(t / 2 ^ (bits - 1) % 2 == 0) ∧
        ((t + 1) % 2 ^ bits == 2 ^ (bits - 1)) = (t / 2 ^ (bits - 1) % 2 == 0)
    else (t + 1) / 2 ^ (bits - 1) = t / 2 ^ (bits - 1) ∧ ((t + 1) % 2 ^ bits == 0) = false ∧ ((t + 1) % 2 ^ bits == 2 ^ (bits - 1)) = false := by
  have hpos : 0 < 2 ^ (bits - 1) := Nat.two_pow_pos _
  have hmod := mod_two_pow_pred (t := t + 1) hb
  split
  · rename_i hm
    have hdiv : (t + 1) / 2 ^ (bits - 1) = t / 2 ^ (bits - 1) + 1 := by
      rw [Nat.succ_div_of_mod_eq_zero]; exact hm
    rw [hdiv, hm] at hmod
    refine ⟨hdiv, ?_⟩
    rcases Nat.mod_two_eq_zero_or_one (t / 2 ^ (bits - 1)) with h | h
    · have e : (t / 2 ^ (bits - 1) + 1) % 2 = 1 := by omega
      rw [e] at hmod
      rw [hmod, h]; simp
    · have e : (t / 2 ^ (bits - 1) + 1) % 2 = 0 := by omega
      rw [e] at hmod
      rw [hmod, h]; simp; omega
  · rename_i hm
    have hdiv : (t + 1) / 2 ^ (bits - 1) = t / 2 ^ (bits - 1) := by
      rw [Nat.succ_div_of_mod_ne_zero]; exact hm
    have hr := Nat.mod_lt (t + 1) hpos
    refine ⟨hdiv, ?_, ?_⟩
    · simp only [beq_eq_false_iff_ne, ne_eq]; omega
    · simp only [beq_eq_false_iff_ne, ne_eq, hmod]
      rcases Nat.mod_two_eq_zero_or_one ((t + 1) / 2 ^ (bits - 1)) with e | e <;> rw [e] <;> omega

theorem exec_inv {m bits : Nat} (hb : 0 < bits) {h : Handler} : ∀ (evs : List Ev) {s s' : St} {out : List (BitVec m × Nat)} {served since lag : Bool},
    Inv bits h s served since lag → Timely bits h.prog.length s.t served since s.pg.length evs → exec m bits h s evs = some (s', out) →
    (∃ served' since' lag', Inv bits h s' served' since' lag') ∧ (∀ v t, (v, t) ∈ out → t < 2 ^ m → v.toNat = t) := by
  intro evs
  induction evs with
  | nil =>
    intro s s' out served since lag hI _ he
    simp only [exec, Option.some.injEq, Prod.mk.injEq] at he
    obtain ⟨rfl, rfl⟩ := he
    exact ⟨⟨_, _, _, hI⟩, by simp⟩
  | cons e evs ih =>
    intro s s' out served since lag hI ht he
    simp only [exec] at he
    split at he
    · cases he
    rename_i s1 e1 hs
    split at he
    · cases he
    rename_i s2 es hr
    simp only [Option.some.injEq, Prod.mk.injEq] at he
    obtain ⟨rfl, rfl⟩ := he
    obtain ⟨ok, ⟨i, pg⟩, rd, sync, cond⟩ := hI
    cases e with
    | tick =>
      simp only [step, Option.some.injEq, Prod.mk.injEq] at hs
      obtain ⟨rfl, rfl⟩ := hs
      have hb' := tick_bits hb s.t
      simp only [Timely] at ht
      split at ht
      · rename_i hm
        rw [if_pos hm] at hb'
        obtain ⟨hd, h1, h2⟩ := hb'
        obtain ⟨rfl, ht⟩ := ht
        rw [h1, h2] at hr
        have hk := of_imp (markOk h i s.ovf s.half s.lo s.lh (s.hp % 2 == 0) lag since) (by rw [← pg]; exact cond)
        simp only [Bool.and_eq_true, Bool.not_eq_true'] at hk
        obtain ⟨rfl, hk⟩ := hk
        simp only [Bool.toNat_false, Nat.add_zero] at sync
        rw [← sync] at hr
        refine ih (lag := true) ?_ ht hr
        exact ⟨ok, ⟨i, pg⟩, rd, by simp only [Bool.toNat_true]; rw [hd, sync], by rw [← pg] at hk; exact hk⟩
      · rename_i hm
        rw [if_neg hm] at hb'
        obtain ⟨hd, h1, h2⟩ := hb'
        rw [h1, h2] at hr
        simp only [Bool.or_false] at hr
        refine ih (lag := lag) ?_ ht hr
        exact ⟨ok, ⟨i, pg⟩, rd, by rw [sync, hd], cond⟩
    | enter =>
      simp only [step] at hs
      split at hs
      · rename_i hc
        simp only [Option.some.injEq, Prod.mk.injEq] at hs
        obtain ⟨rfl, rfl⟩ := hs
        simp only [Timely] at ht
        refine ih (lag := lag) ?_ ht hr
        rw [hc.1] at cond
        exact ⟨ok, ⟨0, by simp⟩, rd, sync, of_imp (enterOk h ..) cond⟩
      · cases hs
    | hgo =>
      simp only [step] at hs
      split at hs
      · rename_i x p hrd hpg
        simp only [Option.some.injEq, Prod.mk.injEq] at hs
        obtain ⟨rfl, rfl⟩ := hs
        simp only [Timely] at ht
        obtain ⟨j, hj, hq⟩ := drop_index (hpg.symm.trans pg)
        have hgo := goOk_all h j s.ovf s.half s.lo s.lh (s.hp % 2 == 0) lag served since
        rw [hj, ← pg, hpg] at hgo
        simp only [goOk] at hgo
        have hgo := of_imp hgo (by rw [← hpg]; exact cond)
        simp only [Bool.and_eq_true] at hgo
        obtain ⟨lag', ha, hok', hsum⟩ := abs_access (s := s) (lag := lag) hgo.1 ok
        obtain ⟨ft, fr⟩ := access_frame s x
        rw [hpg] at ht
        have hlen : (x :: p).length - 1 = p.length := by simp
        rw [hlen] at ht
        refine ih (lag := lag') (served := served || (since && (x :: p).length == 1)) (since := since) ?_ ?_ hr
        · refine ⟨hok', ⟨⟨i.val + 1, by omega⟩, hq⟩, ?_, ?_, ?_⟩
          · intro v hv
            simp only [fr, hrd] at hv
            cases hv
          · show (access s x).hp + lag'.toNat = (access s x).t / _
            rw [hsum, ft]; exact sync
          · show Cond (abs (access s x) lag') p _ _ = true
            rw [ha]; exact hgo.2
        · show Timely _ _ (access s x).t _ _ p.length _
          rw [ft]; exact ht
      · cases hs
    | readHp =>
      simp only [step] at hs
      split at hs
      · simp only [Option.some.injEq, Prod.mk.injEq] at hs
        obtain ⟨rfl, rfl⟩ := hs
        simp only [Timely] at ht
        refine ih (s := { s with rd := some s.hp }) (lag := lag) ?_ ht hr
        exact ⟨ok, ⟨i, pg⟩, by intro v hv; simpa using hv.symm, sync, cond⟩
      · cases hs
    | readVal =>
      simp only [step] at hs
      split at hs
      · rename_i hp hrd
        simp only [Option.some.injEq, Prod.mk.injEq] at hs
        obtain ⟨rfl, rfl⟩ := hs
        simp only [Timely] at ht
        have hih := ih (s := { s with rd := none }) (lag := lag) ⟨ok, ⟨i, pg⟩, by simp, sync, cond⟩ ht hr
        refine ⟨hih.1, ?_⟩
        intro v t hvt hlt
        simp only [List.cons_append, List.nil_append, List.mem_cons, Prod.mk.injEq] at hvt
        rcases hvt with ⟨rfl, rfl⟩ | hvt
        · apply C31_calculate_now_exact hb _ _ hlt
          rw [rd hp hrd]
          cases lag <;> simp at sync <;> omega
        · exact hih.2 v t hvt hlt
      · cases hs

theorem start_inv {bits : Nat} {h : Handler} {t0 : Nat} (ht0 : t0 < 2 ^ (bits - 1)) : Inv bits h (start t0) true false false := by
  refine ⟨rfl, ⟨6, ?_⟩, by simp [start], by simp [start, Nat.div_eq_of_lt ht0], by rfl⟩
  cases h <;> rfl

/-- **C32** (single register accesses) For each interrupt handler of the half-period backends, every timer width, every start value in the first half period, and every interleaving of timer ticks, single register accesses
of the handler, and clock reads that preempt it: if between any two consecutive half-period marks some run of the handler is entered and finished, no parity assertion fires and the half-period counter equals the number of half periods elapsed or lags by one. -/
theorem C32_fine_in_sync {m bits : Nat} (hb : 0 < bits) (h : Handler) (t0 : Nat) (ht0 : t0 < 2 ^ (bits - 1)) (evs : List Ev) (hevs : Timely bits h.prog.length t0 true false 0 evs)
    (s : St) (out : List (BitVec m × Nat)) (he : exec m bits h (start t0) evs = some (s, out)) :
    s.panicked = false ∧ (s.hp = s.t / 2 ^ (bits - 1) ∨ s.hp + 1 = s.t / 2 ^ (bits - 1)) := by
  obtain ⟨⟨_, _, lag, hI⟩, _⟩ := exec_inv hb evs (start_inv ht0) hevs he
  refine ⟨hI.ok, ?_⟩
  have := hI.sync
  cases lag <;> simp at this <;> omega

/-- **C32** (single register accesses) and every time that a `now()` returned in such an execution — also one that preempted the handler, and also when the timer counted between its two reads — is the true time at which it read the timer. -/
theorem C32_fine_clock_exact {m bits : Nat} (hb : 0 < bits) (h : Handler) (t0 : Nat) (ht0 : t0 < 2 ^ (bits - 1)) (evs : List Ev) (hevs : Timely bits h.prog.length t0 true false 0 evs)
    (s : St) (out : List (BitVec m × Nat)) (he : exec m bits h (start t0) evs = some (s, out)) :
    ∀ v t, (v, t) ∈ out → t < 2 ^ m → v.toNat = t :=
  (exec_inv hb evs (start_inv ht0) hevs he).2

/-- non-vacuity: a 3-bit timer; the clock is read in the middle of the handler (flag cleared, counter not yet incremented), and a mark passes between the two reads of a `now()` -/
def sample : List Ev :=
  [.tick, .tick, .tick, .readHp, .tick, .readVal, .enter, .hgo, .hgo, .hgo, .hgo, .hgo, .readHp, .tick, .readVal, .hgo, .tick, .tick, .readHp, .tick, .readVal, .enter, .hgo, .hgo, .readHp, .readVal, .hgo, .hgo, .hgo, .hgo]

example : Timely 3 (Handler.prog .stm32Nrf).length 0 true false 0 sample := by simp [Timely, sample, Handler.prog]
example : (exec 64 3 .stm32Nrf (start 0) sample).map (fun r => (r.1.hp, r.1.t, r.2.map (fun x => (x.1.toNat, x.2)))) = some (2, 8, [(4, 4), (5, 5), (8, 8), (8, 8)]) := by decide +kernel

/-- the condition matters: a handler that is entered before a mark and finishes after it does not count for that mark (`silabs/timer.rs` reads the flags first); if nothing else runs, two marks are pending and the next run panics -/
example : (exec 64 3 .silabsTimer (start 0) ([.tick, .tick, .tick, .enter, .hgo, .tick, .hgo, .hgo, .hgo, .hgo, .tick, .tick, .tick, .tick, .enter] ++ List.replicate 5 .hgo)).map (fun r => r.1.panicked) = some true := by
  decide +kernel

end Verif.HalfPeriod.Fine
