import Verif.EndToEnd.System
import Verif.EndToEnd.Esp
import Verif.EspSystem.Cases

/-!
# C92 for accepted applications: ESP32-C3/C6
-/

namespace Verif.EndToEnd

open Verif.Analysis

variable {chip : Chip} {fc : Ident → Bool} {raw : Raw} {ep : EspProgram}

/-- The whole system of `Verif.EspSystem` for a generated program. -/
def espSysCfg (ep : EspProgram) : EspSystem.Cfg where
  hw := espCfg ep
  tasks := polledBy ep.code

/-- what the theorems below say of the tasks of the application: from `s2` to `s3` no task of a lower priority than `q` was started, and one that runs next is inside a critical section it had entered before `s2`, and that blocks priority `q` -/
structure EspTaskPreempts (raw : Raw) (ep : EspProgram) (q : Nat) (s2 : EspSystem.St) (as : List EspSystem.Act) (s3 : EspSystem.St) : Prop where
  starts : ∀ n' t' k' q' args', .irq n' ∈ as → Runs ep.code n' t' → TaskIs raw t' k' q' args' → q ≤ q'
  next : ∀ a ev s4 n' t' k' q' args', EspSystem.Step (espSysCfg ep) s3 a ev s4 → a.own = true → Esp32.top s3.m.stack = some n' → Runs ep.code n' t' → TaskIs raw t' k' q' args' → q' < q →
    ∃ x below, Esp32.BlockedAt (espCfg ep) q x below ∧ (x :: below) <:+ s2.m.stack ∧ (x :: below) <:+ s3.m.stack

/-- a handler has the priority of the tasks it runs -/
theorem esp_runs_prio (h : expandEsp chip fc raw = .ok ep) (hn : ep.code.handlerCount ≤ chip.count) {n : Nat} {t : Ident} {k : Kind} {q : Nat} {args : List TaskArg} (hr : Runs ep.code n t) (ht : TaskIs raw t k q args) : q = espPrio ep n := by
  obtain ⟨p, app, base, an, hp, he⟩ := expandEsp_ok h
  have hr := (runs_code he).mp hr
  obtain ⟨_, _, h2⟩ := runs_prio hp hr
  rw [espPrio_eq h hn hp he hr]
  exact (task_unique hp ht h2).2

theorem espTaskPreempts (h : expandEsp chip fc raw = .ok ep) (hn : ep.code.handlerCount ≤ chip.count) {d : Nat} {s2 s3 : EspSystem.St} {as : List EspSystem.Act} (hp : EspSystem.Preempts (espSysCfg ep) d s2 as s3) :
    EspTaskPreempts raw ep (espPrio ep d) s2 as s3 := by
  refine ⟨?_, ?_⟩
  · intro n' t' k' q' args' hm hr ht
    rw [esp_runs_prio h hn hr ht]
    exact hp.starts _ hm
  · intro a ev s4 n' t' k' q' args' hs ho htop hr ht hlt
    rw [esp_runs_prio h hn hr ht] at hlt
    rcases hp.next a ev s4 n' hs ho htop with hle | hb
    · exact absurd hle (by show ¬ espPrio ep d ≤ espPrio ep n'; omega)
    · exact hb

theorem esp_polledBy (h : expandEsp chip fc raw = .ok ep) {t : Ident} {q : Nat} {args : List TaskArg} (ht : TaskIs raw t .software q args) {d : Nat} (hr : Runs ep.code d t) : ∃ ts, polledBy ep.code d = some ts ∧ t ∈ ts := by
  obtain ⟨p, app, base, an, hp, he⟩ := expandEsp_ok h
  have := polledBy_of_runs hp ht ((runs_code he).mp hr)
  rw [he.code]
  exact this

/-- the handler of a hardware task is not a dispatcher -/
theorem esp_notPolled (h : expandEsp chip fc raw = .ok ep) {v : Ident} {q : Nat} {t : Ident} (hw : (v, q, t) ∈ ep.code.hwHandlers) : polledBy ep.code (v + 1) = none := by
  obtain ⟨p, app, base, an, hp, he⟩ := expandEsp_ok h
  obtain ⟨-, -, hdis⟩ := C44_dispatchers_not_hardware hp
  have e1 : ep.code.dispatchers = p.dispatchers := by rw [he.code]
  have e2 : ep.code.hwHandlers = p.hwHandlers := by rw [he.code]
  rw [e2] at hw
  simp only [polledBy, vecOf, e1, Option.map_eq_none_iff, List.find?_eq_none]
  rintro ⟨o, q', ts⟩ hm
  intro hx
  obtain rfl : o = some v := of_decide_eq_true hx
  exact hdis _ _ _ _ _ hw hm

/-- **C92** (accepted applications) Take any application accepted for ESP32-C3/C6 with an interrupt line for every handler, without shared and local resources of the same name, and a software task `t` of priority `q ≥ 1`. When any task's call of `spawn` has been decided to succeed (`s0` to `s1`) and has returned (`s2`): as
long as `t` has not been polled (`s3`), no task of a lower priority than `q` is started, and none makes a step, except inside a critical section it had entered before `s2` and that blocks priority `q`. -/
theorem C92_app_spawned_preempts (h : expandEsp chip fc raw = .ok ep) (hn : ep.code.handlerCount ≤ chip.count) (hcol : NoCollision raw) {t0 : Nat} (ht0 : t0 ≤ 1) {t : Ident} {q : Nat} {args : List TaskArg} (ht : TaskIs raw t .software q args) (hq : 1 ≤ q) {d : Nat} (hr : Runs ep.code d t)
    {st s0 s1 s2 s3 : EspSystem.St} {as0 as1 as2 : List EspSystem.Act} {tr0 tr1 tr2 : List (Nat × Executor.Ev)} {a : Nat} (hst : EspSystem.Start (espSysCfg ep) t0 st) (hx0 : EspSystem.Exec (espSysCfg ep) st as0 tr0 s0)
    (hok : EspSystem.Step (espSysCfg ep) s0 (.call d) [(d, .ok t a)] s1) (hx1 : EspSystem.Exec (espSysCfg ep) s1 as1 tr1 s2) (hret : (s2.ex d).pc (EspSystem.depth s0.m.stack) = .idle)
    (hx2 : EspSystem.Exec (espSysCfg ep) s2 as2 tr2 s3) (hno : (d, .polled t) ∉ tr1 ++ tr2) (hbad : ∀ t', (d, .badPoll t') ∉ tr1 ++ tr2) : EspTaskPreempts raw ep q s2 as2 s3 := by
  obtain ⟨ts, h1, h2⟩ := esp_polledBy h ht hr
  obtain rfl : q = espPrio ep d := esp_runs_prio h hn hr ht
  exact espTaskPreempts h hn (EspSystem.C92_spawned_preempts (c := espSysCfg ep) (espCfg_wellFormed h hn hcol) ht0 rfl hst hx0 h1 h2 hq hok hx1 hret hx2 hno hbad).1

/-- **C92** (accepted applications) The same for a waker of the live task `t`, until the task is polled or completes in the poll that was going on. -/
theorem C92_app_woken_preempts (h : expandEsp chip fc raw = .ok ep) (hn : ep.code.handlerCount ≤ chip.count) (hcol : NoCollision raw) {t0 : Nat} (ht0 : t0 ≤ 1) {t : Ident} {q : Nat} {args : List TaskArg} (ht : TaskIs raw t .software q args) (hq : 1 ≤ q) {d : Nat} (hr : Runs ep.code d t)
    {st s0 s1 s2 s3 : EspSystem.St} {as0 as1 as2 : List EspSystem.Act} {tr0 ev1 tr1 tr2 : List (Nat × Executor.Ev)} (hst : EspSystem.Start (espSysCfg ep) t0 st) (hx0 : EspSystem.Exec (espSysCfg ep) st as0 tr0 s0) (hlive : (s0.ex d).running t = true)
    (hcall : EspSystem.Step (espSysCfg ep) s0 (.wake d t) ev1 s1) (hx1 : EspSystem.Exec (espSysCfg ep) s1 as1 tr1 s2) (hret : (s2.ex d).pc (EspSystem.depth s0.m.stack) = .idle) (hx2 : EspSystem.Exec (espSysCfg ep) s2 as2 tr2 s3)
    (hno : (d, .polled t) ∉ tr1 ++ tr2) (hcomp : (d, .completed t) ∉ tr1 ++ tr2) (hbad : ∀ t', (d, .badPoll t') ∉ tr1 ++ tr2) : EspTaskPreempts raw ep q s2 as2 s3 := by
  obtain ⟨ts, h1, h2⟩ := esp_polledBy h ht hr
  obtain rfl : q = espPrio ep d := esp_runs_prio h hn hr ht
  exact espTaskPreempts h hn (EspSystem.C92_woken_preempts (c := espSysCfg ep) (espCfg_wellFormed h hn hcol) ht0 rfl hst hx0 h1 hq hlive hcall hx1 hret hx2 hno hcomp hbad).1

/-- **C92** (accepted applications, hardware) While a peripheral requests interrupt `v`, to which the hardware task `t` of priority `q` is bound: no task of a lower priority than `q` is started, and none makes a step, except inside a critical section it had entered before the request and that blocks priority `q`. -/
theorem C92_app_hardware_preempts (h : expandEsp chip fc raw = .ok ep) (hn : ep.code.handlerCount ≤ chip.count) (hcol : NoCollision raw) {t0 : Nat} (ht0 : t0 ≤ 1) {t : Ident} {k : Kind} {q : Nat} {args : List TaskArg} (ht : TaskIs raw t k q args) (hq : 1 ≤ q) {v : Ident} (hw : (v, q, t) ∈ ep.code.hwHandlers)
    {st s2 s3 : EspSystem.St} {as0 as2 : List EspSystem.Act} {tr0 tr2 : List (Nat × Executor.Ev)} (hst : EspSystem.Start (espSysCfg ep) t0 st) (hx0 : EspSystem.Exec (espSysCfg ep) st as0 tr0 s2) (hpend : s2.pend (v + 1) = true)
    (hx2 : EspSystem.Exec (espSysCfg ep) s2 as2 tr2 s3) (hkeep : .unhw (v + 1) ∉ as2) : EspTaskPreempts raw ep q s2 as2 s3 := by
  have hr : Runs ep.code (v + 1) t := .inl ⟨q, hw⟩
  obtain rfl : q = espPrio ep (v + 1) := esp_runs_prio h hn hr ht
  exact espTaskPreempts h hn (EspSystem.C92_hardware_preempts (c := espSysCfg ep) (espCfg_wellFormed h hn hcol) ht0 rfl hst hx0 (esp_notPolled h hw) hq hpend hx2 hkeep)

/-! ### Example: the application `exRaw` on an ESP32-C3; idle spawns task 23 of priority 3 -/

def exEsp : EspProgram := { code := exProg, enables := [(50, 1, 16), (51, 3, 17), (60, 2, 18), (61, 2, 19)], exports := [(50, [16]), (51, [17]), (60, [18]), (61, [19])] }

theorem exEsp_accepted : expandEsp .c3 (fun i => decide (i = 50 ∨ i = 51)) exRaw = .ok exEsp := by
  obtain ⟨ep, h, h1, h2, h3⟩ := exRaw_esp
  obtain ⟨c, e, x⟩ := ep
  simp only at h1 h2 h3
  rw [h, h1, h2, h3]; rfl

def exEspSt : EspSystem.St := { m := Esp32.start 0 1, pend := fun _ => false, ex := fun _ => Executor.init }

theorem exEspSt_start : EspSystem.Start (espSysCfg exEsp) 1 exEspSt := ⟨rfl, fun _ _ _ => ⟨[], [], by simp, rfl⟩, fun _ _ => rfl⟩

theorem exEspSmall : EspSystem.Small (espSysCfg exEsp) 63 := by
  refine ⟨fun n hn => ?_, fun n hn => ?_⟩
  · cases n with
    | zero => omega
    | succ v =>
      have e1 : 50 ≠ (v : Nat) := by omega
      have e2 : 51 ≠ (v : Nat) := by omega
      have e3 : 60 ≠ (v : Nat) := by omega
      have e4 : 61 ≠ (v : Nat) := by omega
      simp [espSysCfg, espCfg, espPrio, exEsp, e1, e2, e3, e4]
  · cases n with
    | zero => omega
    | succ v =>
      have e1 : 50 ≠ (v : Nat) := by omega
      have e2 : 51 ≠ (v : Nat) := by omega
      simp [espSysCfg, polledBy, exEsp, exProg, vecOf, e1, e2]

/-- the call of `spawn` returns and the dispatcher is started at once -/
def exEspScenario : Bool :=
  match EspSystem.run (espSysCfg exEsp) (fun _ _ => false) 63 exEspSt [.spawn 52 23 5] with
  | some (_, s0) =>
    match EspSystem.next (espSysCfg exEsp) (fun _ _ => false) 63 s0 (.call 52) with
    | some (ev, s1) =>
      (match ev with | [(52, .ok 23 5)] => true | _ => false) &&
        match EspSystem.run (espSysCfg exEsp) (fun _ _ => false) 63 s1 [.call 52, .call 52, .call 52] with
        | some (tr1, s2) =>
          tr1.isEmpty && decide ((s2.ex 52).pc (EspSystem.depth s0.m.stack) = .idle) && (EspSystem.run (espSysCfg exEsp) (fun _ _ => false) 63 s2 [.irq 52, .unpend 52, .code .readInitial]).isSome
        | none => false
    | none => false
  | none => false

/-- the hypotheses of `C92_app_spawned_preempts` are met: the call of `spawn` has returned, and the task has not been polled; the dispatcher is started -/
example : Runs exProg 52 23 ∧ exEsp.code.handlerCount ≤ Chip.count .c3 ∧ NoCollision exRaw ∧ ∃ s0 s1 s2 s3 as0 tr0 as1 tr3, EspSystem.Start (espSysCfg exEsp) 1 exEspSt ∧ EspSystem.Exec (espSysCfg exEsp) exEspSt as0 tr0 s0 ∧
    EspSystem.Step (espSysCfg exEsp) s0 (.call 52) [(52, .ok 23 5)] s1 ∧ EspSystem.Exec (espSysCfg exEsp) s1 as1 [] s2 ∧ (s2.ex 52).pc (EspSystem.depth s0.m.stack) = .idle ∧
    EspSystem.Exec (espSysCfg exEsp) s2 [.irq 52, .unpend 52, .code .readInitial] tr3 s3 := by
  have hs : exEspScenario = true := by decide +kernel
  refine ⟨.inr ⟨3, [23, 24], by decide, by decide⟩, by decide +kernel, exRaw_noCollision, ?_⟩
  unfold exEspScenario at hs
  have hu : ∀ t r, (fun _ _ => false : Nat → Nat → Bool) t r = true → (espSysCfg exEsp).hw.uses t r := fun _ _ h => by cases h
  split at hs
  · next tr0 s0 h0 =>
    obtain ⟨k0, i0⟩ := EspSystem.run_sound hu exEspSmall _ (fun _ _ _ => rfl) h0
    split at hs
    · next ev s1 h1 =>
      rw [Bool.and_eq_true] at hs
      obtain ⟨hev, hs⟩ := hs
      have hst := EspSystem.next_sound hu exEspSmall i0 h1
      have i1 := EspSystem.idle_step i0 hst
      split at hs
      · next tr1 s2 h2 =>
        obtain ⟨k2, i2⟩ := EspSystem.run_sound hu exEspSmall _ i1 h2
        simp only [Bool.and_eq_true, List.isEmpty_iff, decide_eq_true_eq] at hs
        obtain ⟨⟨e1, hp⟩, h⟩ := hs
        obtain ⟨⟨tr3, s3⟩, h3⟩ := Option.isSome_iff_exists.1 h
        obtain ⟨k3, -⟩ := EspSystem.run_sound hu exEspSmall _ i2 h3
        subst e1
        split at hev
        · exact ⟨s0, s1, s2, s3, _, tr0, _, tr3, exEspSt_start, k0, hst, k2, hp, k3⟩
        · cases hev
      · cases hs
    · cases hs
  · cases hs

/-- the hypotheses of `C92_app_hardware_preempts` are met: the interrupt of hardware task 61 of priority 2 is requested while idle runs -/
example : ∃ t s2 tr, (61, 2, t) ∈ exEsp.code.hwHandlers ∧ EspSystem.Exec (espSysCfg exEsp) exEspSt [.hw 62] tr s2 ∧ s2.pend 62 = true :=
  ⟨_, _, _, by simp [exEsp, exProg]; rfl, .snoc (.nil _) (.hw 62 (by decide)), by simp [EspSystem.upd]⟩

end Verif.EndToEnd
