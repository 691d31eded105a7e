import Verif.EndToEnd.EspSync
import Verif.EndToEnd.MaskTimed
import Verif.EspTimed.Run

/-!
# C106 for accepted applications with a monotonic, on ESP32-C3/C6; C107: the interrupt line of the monotonic
-/

namespace Verif.Analysis

variable {chip : Chip} {fc : Ident → Bool} {raw : Raw} {ep : EspProgram}

/-! ## C107: the interrupt line of the monotonic -/

/-- `cpu_interrupt_number`, and the number in the name of the handler, `rtic-monotonics/src/esp32c3.rs:53,158`, `esp32c6.rs:52,159` -/
def monoLine : Nat := 31

/-- **C107** (partial: for at most 15 handlers on the C3, 11 on the C6; see `C107_line_violated`) In an accepted application no handler of a task or a dispatcher is enabled on the interrupt line of the monotonic, and none is exported as its handler. -/
theorem C107_line_free_partial (h : expandEsp chip fc raw = .ok ep) (hn : ep.code.handlerCount < chip.count) :
    (∀ v q k, (v, q, k) ∈ ep.enables → k ≠ monoLine) ∧ ∀ v ls, (v, ls) ∈ ep.exports → monoLine ∉ ls := by
  obtain ⟨p, app, base, an, hp, he⟩ := expandEsp_ok h
  have hcode : ep.code = { p with main := ep.code.main } := by rw [he.code]
  have hcnt : ep.code.handlerCount = p.handlerCount := by rw [hcode]; rfl
  have hlen : (espVectors app an).length < chip.count := by rw [hcnt] at hn; exact Nat.lt_of_le_of_lt (handlerCount_eq he.exp) hn
  have key : ∀ v q k, (v, q, k) ∈ ep.enables → k ≠ monoLine := by
    intro v q k hm
    rw [he.enables] at hm
    obtain ⟨j, h1, h2⟩ := espZip_mem hm
    have hj := (List.getElem?_eq_some_iff.mp h1).1
    have h2 : chip.line (0 + j) = some k := h2
    cases chip <;> simp only [Chip.line, Chip.count, monoLine] at * <;> grind
  refine ⟨key, fun v ls hm hk => ?_⟩
  rw [he.exports] at hm
  obtain ⟨pv, -, e⟩ := List.mem_map.1 hm
  cases e
  obtain ⟨⟨v', q, k⟩, hf, hk'⟩ := List.mem_map.1 hk
  rw [← he.enables] at hf
  exact key _ _ _ (List.mem_filter.1 hf).1 hk'

/-- non-vacuity of `C107_line_free_partial`, at the boundary: an application with 11 handlers on the C6, one with 15 on the C3 -/
example : (match expandEsp .c6 (fun _ => false) (manyRaw 11) with | .ok ep => decide (ep.code.handlerCount = 11 ∧ ep.enables.length = 11) | .error _ => false) = true ∧
    (match expandEsp .c3 (fun _ => false) (manyRaw 15) with | .ok ep => decide (ep.code.handlerCount = 15 ∧ ep.enables.length = 15) | .error _ => false) = true := by
  constructor <;> decide +kernel

/-- **C107** violated: an application with 12 hardware tasks is accepted on the ESP32-C6, one with 16 on the ESP32-C3, and each handler gets a line; but the last one gets the line of the monotonic, and is exported as `interrupt31` as is the handler of the monotonic. -/
theorem C107_line_violated :
    (∃ ep, expandEsp .c6 (fun _ => false) (manyRaw 12) = .ok ep ∧ ep.code.handlerCount ≤ Chip.count .c6 ∧ (211, 1, monoLine) ∈ ep.enables ∧ (211, [monoLine]) ∈ ep.exports) ∧
    (∃ ep, expandEsp .c3 (fun _ => false) (manyRaw 16) = .ok ep ∧ ep.code.handlerCount ≤ Chip.count .c3 ∧ (215, 1, monoLine) ∈ ep.enables ∧ (215, [monoLine]) ∈ ep.exports) := by
  constructor
  · have : (match expandEsp .c6 (fun _ => false) (manyRaw 12) with
      | .ok ep => decide (ep.code.handlerCount ≤ Chip.count .c6 ∧ (211, 1, monoLine) ∈ ep.enables ∧ (211, [monoLine]) ∈ ep.exports) | .error _ => false) = true := by decide +kernel
    split at this
    · next ep h => exact ⟨ep, h, of_decide_eq_true this⟩
    · cases this
  · have : (match expandEsp .c3 (fun _ => false) (manyRaw 16) with
      | .ok ep => decide (ep.code.handlerCount ≤ Chip.count .c3 ∧ (215, 1, monoLine) ∈ ep.enables ∧ (215, [monoLine]) ∈ ep.exports) | .error _ => false) = true := by decide +kernel
    split at this
    · next ep h => exact ⟨ep, h, of_decide_eq_true this⟩
    · cases this

end Verif.Analysis

namespace Verif.EndToEnd

open Verif.Analysis

variable {chip : Chip} {fc : Ident → Bool} {raw : Raw} {ep : EspProgram}

/-- The whole system of `Verif.EspTimed` for a generated program and a monotonic with timer `tb` on interrupt vector `v` (`SYSTIMER_TARGET0`); `own`: the tasks awaiting the delays. The monotonic gives its interrupt priority 15 (`rtic-monotonics/src/esp32c3.rs:64-71`, `esp32c6.rs:59-67`), on a line of its own (see C107). -/
def espTimedCfg (ep : EspProgram) (v : Ident) (tb : TimerQueue.Cfg) (own : Nat → Nat) : EspTimed.Cfg where
  sys := { hw := { espCfg ep with prio := fun n => if n = v + 1 then 15 else espPrio ep n }, tasks := polledBy ep.code }
  tb := tb
  th := v + 1
  own := own

/-- the application uses priorities up to 14 -/
theorem espPrio_14 (h : expandEsp chip fc raw = .ok ep) (n : Nat) : espPrio ep n ≤ 14 := by
  obtain ⟨p, app, base, an, hp, he⟩ := expandEsp_ok h
  cases n with
  | zero => exact Nat.zero_le _
  | succ v =>
    simp only [espPrio]
    split
    · rename_i e hf
      have hm := List.mem_of_find?_eq_some hf
      have hfit := he.fits
      rw [← he.enables] at hfit
      have := List.all_eq_true.mp hfit _ hm
      simp only [decide_eq_true_eq] at this
      omega
    · exact Nat.zero_le _

theorem espTimedCfg_wellFormed (h : expandEsp chip fc raw = .ok ep) (hn : ep.code.handlerCount ≤ chip.count) (hcol : NoCollision raw) {v : Ident} (hv : FreeVector ep.code v) {tb : TimerQueue.Cfg} (htb : 0 < tb.w) (own : Nat → Nat) : EspTimed.WellFormed (espTimedCfg ep v tb own) where
  hw := by
    have hw := espCfg_wellFormed h hn hcol
    refine ⟨fun n => ?_, fun n r hu => ?_, hw.ceilMax⟩
    · show (if n = v + 1 then 15 else espPrio ep n) ≤ 15
      split
      · exact Nat.le_refl _
      · exact Nat.le_trans (espPrio_14 h n) (by decide)
    · show (if n = v + 1 then 15 else espPrio ep n) ≤ _
      have hn : n ≠ v + 1 := by
        rintro rfl
        obtain ⟨c, -, hr, -⟩ := hu
        exact free_runs hv _ hr
      rw [if_neg hn]
      exact hw.ceil n r hu
  thread := by
    show (if 0 = v + 1 then 15 else espPrio ep 0) = 0
    rw [if_neg (Ne.symm (Nat.succ_ne_zero v))]
    rfl
  th := free_unpolled hv
  prioTh := if_pos rfl
  prio := fun n hne => by
    show (if n = v + 1 then 15 else espPrio ep n) ≤ 14
    rw [if_neg (show ¬ n = v + 1 from hne)]
    exact espPrio_14 h n
  uniq := by
    intro d ts d' ts' t hd hd' ht ht'
    obtain ⟨p, app, base, an, hp, he⟩ := expandEsp_ok h
    have e : ∀ n, polledBy ep.code n = polledBy p n := fun n => by rw [he.code]; rfl
    exact polledBy_one hp (by rw [← e]; exact hd) (by rw [← e]; exact hd') ht ht'
  width := htb

/-- **C106** (accepted applications) Take any application accepted for ESP32-C3/C6 without shared and local resources of the same name, with fewer handlers than the chip has interrupt lines, with a monotonic on an interrupt the application does not use; a software task `t` of priority `q ≥ 1`; and a delay `i` of `t`. Let `s2` be a moment at
which `t` waits for the delay, and the delay is overdue, and let this be so up to `s3`, without code of lower priority being preempted between inserting its delay as the earliest one and calling `pend_interrupt`. Then from `s2` to `s3` no task of a lower priority than `q` is started; and one that runs next is inside a critical section it
had entered before `s2`, and that blocks priority `q`. -/
theorem C106_app_expired_runs_first_partial (h : expandEsp chip fc raw = .ok ep) (hn : ep.code.handlerCount < chip.count) (hcol : NoCollision raw) {v : Ident} (hv : FreeVector ep.code v) {tb : TimerQueue.Cfg} (htb : 0 < tb.w) {own : Nat → Nat} {t0 : Nat} (ht0 : t0 ≤ 1) {t : Ident} {q : Nat} {args : List TaskArg} (ht : TaskIs raw t .software q args) (hq : 1 ≤ q)
    {d : Nat} (hr : Runs ep.code d t) {st s2 s3 : EspTimed.St} {as0 as : List EspTimed.Act} {tr0 : List (Nat × Executor.Ev)} (hst : EspTimed.Start (espTimedCfg ep v tb own) t0 st) (hx : EspTimed.Exec (espTimedCfg ep v tb own) st as0 tr0 s2) {i : Nat} (ho : own i = t)
    (hw : EspTimed.While (espTimedCfg ep v tb own) (fun s => s.waits i = true ∧ EspTimed.Overdue (espTimedCfg ep v tb own) i s ∧ ¬ EspTimed.HeldUp (espTimedCfg ep v tb own) q s) s2 as s3) :
    (∀ n' t' k' q' args', .sys (.irq n') ∈ as → Runs ep.code n' t' → TaskIs raw t' k' q' args' → q ≤ q') ∧
    (∀ a ev s4 n' t' k' q' args', EspTimed.Step (espTimedCfg ep v tb own) s3 a ev s4 → a.own = true → Esp32.top s3.y.m.stack = some n' → Runs ep.code n' t' → TaskIs raw t' k' q' args' → q' < q →
      ∃ x below, Esp32.BlockedAt (espTimedCfg ep v tb own).sys.hw q x below ∧ (x :: below) <:+ s2.y.m.stack ∧ (x :: below) <:+ s3.y.m.stack) := by
  have hn := Nat.le_of_lt hn
  obtain ⟨ts, h1, h2⟩ := esp_polledBy h ht hr
  have tp : ∀ {n' t' k' q' args'}, Runs ep.code n' t' → TaskIs raw t' k' q' args' → (espTimedCfg ep v tb own).sys.hw.prio n' = q' := by
    intro n' t' k' q' args' hr' ht'
    have hne : n' ≠ v + 1 := by rintro rfl; exact free_runs hv _ hr'
    show (if n' = v + 1 then 15 else espPrio ep n') = _
    rw [if_neg hne]
    exact (esp_runs_prio h hn hr' ht').symm
  have hpd := tp hr ht
  have hC := EspTimed.C106_expired_runs_first_partial (espTimedCfg_wellFormed h hn hcol hv htb own) ht0 (d := d) (i := i) (ts := ts) hst hx h1 (by show own i ∈ ts; rw [ho]; exact h2) (by rw [hpd]; exact hq) (by rw [hpd]; exact hw)
  rw [hpd] at hC
  refine ⟨?_, ?_⟩
  · intro n' t' k' q' args' hm hr' ht'
    have := hC.2 _ n' hm rfl
    rwa [tp hr' ht'] at this
  · intro a ev s4 n' t' k' q' args' hs hown htop hr' ht' hlt
    rcases hC.1 a ev s4 n' hs hown htop with hle | hb'
    · rw [tp hr' ht'] at hle; omega
    · exact hb'

/-! ### Example: in the application `exRaw` on an ESP32-C3, with a 64-bit timer on vector 70, `init` spawns task 22 (priority 1; handler 51), which awaits a delay until time 20 -/

def exETimed : EspTimed.Cfg := espTimedCfg exEsp 70 { w := 64, noop := true, sl := 0 } (fun i => if i = 0 then 22 else 0)

theorem exETimed_tasks {d : Nat} {ts : List Nat} (h : exETimed.sys.tasks d = some ts) : (d = 51 ∧ ts = [22]) ∨ (d = 52 ∧ ts = [23, 24]) := exMTimed_tasks (d := d) (ts := ts) h

theorem exETimed_small : EspTimed.Small exETimed 72 1 where
  sys := by
    constructor
    · intro n hn
      show (if n = 71 then _ else espPrio exEsp n) = 0
      rw [if_neg (by omega)]
      exact exEspSmall.1 n (by omega)
    · intro n hn
      exact exEspSmall.2 n (by omega)
  own := by
    intro i hi d ts h
    have : exETimed.own i = 0 := by show (if i = 0 then _ else _) = _; rw [if_neg (by omega)]
    rw [this]
    rcases exETimed_tasks h with ⟨-, rfl⟩ | ⟨-, rfl⟩ <;> decide

theorem exETimed_uses : ∀ t r, (fun _ _ => false : Nat → Nat → Bool) t r = true → exETimed.sys.hw.uses t r := fun _ _ h => by cases h

/-- `init` has spawned task 22 -/
def exEStart : EspTimed.St :=
  { y := { m := Esp32.start 0 1, pend := fun _ => false, ex := fun h => if h = 51 then Timed.spawned [22] 22 else Executor.init }, tq := TimerQueue.init true, call := none, inl := false, waits := fun _ => false }

theorem exETimed_start : EspTimed.Start exETimed 1 exEStart where
  m := rfl
  calls := fun d' ts h => by
    have hz : exETimed.sys.exec d' ts = { ts := ts, zero := false } := by
      rcases exETimed_tasks h with ⟨rfl, rfl⟩ | ⟨rfl, rfl⟩ <;> rfl
    rw [hz]
    rcases exETimed_tasks h with ⟨rfl, rfl⟩ | ⟨rfl, rfl⟩
    · obtain ⟨tr, hx⟩ := Timed.spawned_eq [22] 22 List.mem_cons_self
      refine ⟨Timed.initSpawn 22, tr, ?_, by simpa [exEStart] using hx⟩
      intro a ha
      simp only [Timed.initSpawn, List.mem_cons, List.not_mem_nil, or_false] at ha
      rcases ha with rfl | rfl | rfl | rfl | rfl <;> exact ⟨rfl, fun _ _ => ⟨by simp, by simp⟩⟩
    · exact ⟨[], [], by simp, rfl⟩
  over := fun d' i => by
    simp only [exEStart]
    split
    · exact Timed.spawned_idle _ _ _ List.mem_cons_self
    · rfl
  tq := rfl
  line := rfl
  call := rfl
  inl := rfl
  waits := fun _ => rfl

def exEExpiry : List EspTimed.Act :=
  EspTimed.polls 51 ++ [.op (.create 0 20), .op (.poll 0 22), .op (.ins 0), .pend 0, .hgo, .hgo, .hgo, .hgo, .arm 20, .hgo, .pendRet] ++ EspTimed.ends 51 ++ List.replicate 19 (.clock false false false) ++ [.clock true false false]

def exEExpired (s : EspTimed.St) : Bool := s.waits 0 && decide (s.tq.inst 0 ≤ s.tq.now) && decide (s.tq.pc 0 ≠ .p2) && EspTimed.stackIs [0] s.y.m.stack && (EspTimed.next exETimed (fun _ _ => false) 72 1 s .enter).isSome

theorem exEExpiry_run : (match EspTimed.run exETimed (fun _ _ => false) 72 1 exEStart exEExpiry with | some (_, s) => exEExpired s | none => false) = true := by decide +kernel

theorem exEExpiry_others (j : Nat) (hj : j ≠ 0) : ∀ a ∈ exEExpiry, EspTimed.others j a = true := by
  intro a ha
  simp only [exEExpiry, EspTimed.polls, EspTimed.ends, List.mem_append, List.mem_cons, List.not_mem_nil, or_false, List.mem_replicate] at ha
  simp only [or_assoc] at ha
  repeat' (rcases ha with rfl | ha)
  all_goals first | rfl | (simp [EspTimed.others, Timed.opOf]; omega) | skip
  rcases ha with ha | ha
  · rw [ha.2]; rfl
  · rw [ha]; rfl

/-- the hypotheses of `C106_app_expired_runs_first_partial` are met: idle runs when the delay expires; the timer interrupt is taken -/
example : Runs exProg 51 22 ∧ exEsp.code.handlerCount < Chip.count .c3 ∧ NoCollision exRaw ∧ FreeVector exProg 70 ∧ ∃ s2 s3 as0 tr0, EspTimed.Start exETimed 1 exEStart ∧ EspTimed.Exec exETimed exEStart as0 tr0 s2 ∧ Esp32.top s2.y.m.stack = some 0 ∧ exETimed.own 0 = 22 ∧
    EspTimed.While exETimed (fun s => s.waits 0 = true ∧ EspTimed.Overdue exETimed 0 s ∧ ¬ EspTimed.HeldUp exETimed 1 s) s2 [] s2 ∧ EspTimed.Step exETimed s2 .enter [] s3 := by
  refine ⟨.inr ⟨1, [22], by decide, by decide⟩, by decide +kernel, exRaw_noCollision, exTimed_free, ?_⟩
  have h := exEExpiry_run
  split at h
  · next tr s hr =>
    simp only [exEExpired, Bool.and_eq_true, decide_eq_true_eq, Option.isSome_iff_exists] at h
    obtain ⟨⟨⟨⟨h1, h2⟩, h3⟩, h4⟩, ⟨ev, s3⟩, hn⟩ := h
    have h0 : EspSystem.Idle exETimed.sys exEStart.y := fun d' _ i => exETimed_start.over d' i
    have hx := EspTimed.run_sound exETimed_uses exETimed_small h0 hr
    have hs := EspTimed.next_sound exETimed_uses exETimed_small (EspTimed.idle_exec h0 hx) hn
    have hev : ev = [] := by cases hs; rfl
    subst hev
    refine ⟨s, s3, _, tr, exETimed_start, hx, EspTimed.stackIs_top h4, rfl, .nil ⟨h1, h2, ?_⟩, hs⟩
    rintro ⟨j, hj, -⟩
    by_cases e : j = 0
    · subst e; exact h3 hj
    · rw [EspTimed.pc_exec hx (exEExpiry_others j e)] at hj; cases hj
  · cases h

end Verif.EndToEnd
