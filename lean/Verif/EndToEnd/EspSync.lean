import Verif.EndToEnd.Sync
import Verif.EndToEnd.EspSystem
import Verif.EspSync.Run

/-!
# C104 for accepted applications (ESP32-C3, C6): a task whose awaited future is ready runs before any task of lower priority
-/

namespace Verif.EndToEnd

open Verif.Analysis

variable {chip : Chip} {fc : Ident → Bool} {raw : Raw} {ep : EspProgram} {S A E T : Type}

/-- the situation of C104 in an accepted application is covered by the machine -/
theorem espSync_wellFormed (h : expandEsp chip fc raw = .ok ep) (hn : ep.code.handlerCount ≤ chip.count) (hcol : NoCollision raw) {t0 : Nat} (ht0 : t0 ≤ 1) {c : EspSync.Cfg S A E} (hc : c.sys = espSysCfg ep) : EspSync.WellFormed c t0 := by
  refine ⟨by rw [hc]; exact espCfg_wellFormed h hn hcol, ht0, by rw [hc]; rfl, ?_⟩
  intro d d' ts ts' t hd hd' ht ht'
  rw [hc] at hd hd'
  obtain ⟨p, app, base, an, hp, he⟩ := expandEsp_ok h
  have e : ∀ n, polledBy ep.code n = polledBy p n := fun n => by rw [he.code]; rfl
  exact polledBy_one hp (by rw [← e]; exact hd) (by rw [← e]; exact hd') ht ht'

/-- What the theorems below say of the tasks of the application: from `s2` to `s3` no task of a lower priority than `q` was started, and one that runs next is inside a critical section it had entered before `s2`, and that blocks priority `q`. -/
structure EspSyncPreempts (raw : Raw) (ep : EspProgram) (q : Nat) (c : EspSync.Cfg S A E) (s2 : EspSync.St S) (as : List (EspSync.Act A)) (s3 : EspSync.St S) : Prop where
  starts : ∀ n' t' k' q' args', .sys (.irq n') ∈ as → Runs ep.code n' t' → TaskIs raw t' k' q' args' → q ≤ q'
  next : ∀ a ev s4 n' t' k' q' args', EspSync.Step c s3 a ev s4 → a.own = true → Esp32.top s3.y.m.stack = some n' → Runs ep.code n' t' → TaskIs raw t' k' q' args' → q' < q →
    ∃ x below, Esp32.BlockedAt (espCfg ep) q x below ∧ (x :: below) <:+ s2.y.m.stack ∧ (x :: below) <:+ s3.y.m.stack

theorem espSyncPreempts (h : expandEsp chip fc raw = .ok ep) (hn : ep.code.handlerCount ≤ chip.count) {t : Ident} {q : Nat} {args : List TaskArg} (ht : TaskIs raw t .software q args) {d : Nat} (hr : Runs ep.code d t) {c : EspSync.Cfg S A E} (hc : c.sys = espSysCfg ep) {ts : List Nat} {s2 s3 : EspSync.St S} {as : List (EspSync.Act A)}
    (hp : EspSync.Preempts c d ts s2 as s3) : EspSyncPreempts raw ep q c s2 as s3 := by
  have prio : ∀ {n' t' k' q' args'}, Runs ep.code n' t' → TaskIs raw t' k' q' args' → q' = espPrio ep n' := fun hr ht => esp_runs_prio h hn hr ht
  have hq := prio hr ht
  have e : c.sys.hw = espCfg ep := by rw [hc]; rfl
  refine ⟨?_, ?_⟩
  · intro n' t' k' q' args' hm hr ht
    have := hp.starts _ hm
    rw [e] at this
    rw [prio hr ht, hq]
    exact this
  · intro a ev s4 n' t' k' q' args' hs ho htop hr ht hlt
    rw [prio hr ht] at hlt
    have := hp.next a ev s4 n' hs ho htop
    rw [e] at this
    rcases this with hle | hb
    · exact absurd hle (by show ¬ espPrio ep d ≤ espPrio ep n'; omega)
    · rw [hq]; exact hb

/-! In each theorem: an accepted application without shared and local resources of the same name, with at most as many handlers as the chip has interrupts, a software task `t` of priority `q ≥ 1` polled by handler `d`, and the situation of `EspSync.Waits`. -/

/-- **C104** (accepted applications, `Signal`, value present) as `EspSync.C104_signal_ready`. -/
theorem C104_app_signal_ready (h : expandEsp chip fc raw = .ok ep) (hn : ep.code.handlerCount ≤ chip.count) (hcol : NoCollision raw) {t0 : Nat} (ht0 : t0 ≤ 1) {t : Ident} {q : Nat} {args : List TaskArg} (ht : TaskIs raw t .software q args) {d : Nat} (hr : Runs ep.code d t) {ts : List Nat} {w : Nat} {f : Bool} {st s2 s3} {tr0 tr1 tr2 b} {as2}
    (hw : EspSync.Waits (EspSync.signal T (espSysCfg ep)) t0 d t ts st s2 s3 tr0 tr1 tr2 b as2) (hpoll : .act (.poll w) ∈ b) (hp : s2.m.rx = .pend f t) (hready : s2.m.store ≠ none) (hrest : ∀ i, s2.m.wr i = false) :
    EspSyncPreempts raw ep q (EspSync.signal T (espSysCfg ep)) s2 as2 s3 :=
  espSyncPreempts h hn ht hr rfl (EspSync.C104_signal_ready (espSync_wellFormed h hn hcol ht0 rfl) hw hpoll hp hready hrest)

/-- **C104** (accepted applications, `Signal`, write returned) as `EspSync.C104_signal_returned`. -/
theorem C104_app_signal_returned (h : expandEsp chip fc raw = .ok ep) (hn : ep.code.handlerCount ≤ chip.count) (hcol : NoCollision raw) {t0 : Nat} (ht0 : t0 ≤ 1) {t : Ident} {q : Nat} {args : List TaskArg} (ht : TaskIs raw t .software q args) {d : Nat} (hr : Runs ep.code d t) {ts : List Nat} {i : Nat} {st s2 s3} {tr0 tr1 tr2 b1 b2} {as2}
    (hw : EspSync.Waits (EspSync.signal T (espSysCfg ep)) t0 d t ts st s2 s3 tr0 tr1 tr2 (b1 ++ .m (.reg t) :: b2) as2) (hlast : ∀ w, .m (.reg w) ∉ b2) (hret : .act (.wake i) ∈ b2) : EspSyncPreempts raw ep q (EspSync.signal T (espSysCfg ep)) s2 as2 s3 :=
  espSyncPreempts h hn ht hr rfl (EspSync.C104_signal_returned (espSync_wellFormed h hn hcol ht0 rfl) hw hlast hret)

/-- **C104** (accepted applications, `Watch`, write returned) as `EspSync.C104_watch_returned`. -/
theorem C104_app_watch_returned (h : expandEsp chip fc raw = .ok ep) (hn : ep.code.handlerCount ≤ chip.count) (hcol : NoCollision raw) {t0 : Nat} (ht0 : t0 ≤ 1) {t : Ident} {q : Nat} {args : List TaskArg} (ht : TaskIs raw t .software q args) {d : Nat} (hr : Runs ep.code d t) {ts : List Nat} {i : Nat} {st s2 s3} {tr0 tr1 tr2 b1 b2} {as2}
    (hw : EspSync.Waits (EspSync.watch T (espSysCfg ep)) t0 d t ts st s2 s3 tr0 tr1 tr2 (b1 ++ .m (.reg t) :: b2) as2) (hlast : ∀ w, .m (.reg w) ∉ b2) (hret : .act (.wake i) ∈ b2) : EspSyncPreempts raw ep q (EspSync.watch T (espSysCfg ep)) s2 as2 s3 :=
  espSyncPreempts h hn ht hr rfl (EspSync.C104_watch_returned (espSync_wellFormed h hn hcol ht0 rfl) hw hlast hret)

/-- **C104** (accepted applications, `Channel`, receiver, value queued) as `EspSync.C104_recv_ready`. -/
theorem C104_app_recv_ready (h : expandEsp chip fc raw = .ok ep) (hn : ep.code.handlerCount ≤ chip.count) (hcol : NoCollision raw) {t0 : Nat} (ht0 : t0 ≤ 1) {t : Ident} {q : Nat} {args : List TaskArg} (ht : TaskIs raw t .software q args) {d : Nat} (hr : Runs ep.code d t) {ts : List Nat} {n w : Nat} {st s2 s3} {tr0 tr1 tr2 b} {as2}
    (hw : EspSync.Waits (EspSync.channel T n (espSysCfg ep)) t0 d t ts st s2 s3 tr0 tr1 tr2 b as2) (hpoll : .act (.pollRecv w) ∈ b) (hp : s2.m.rx = .pend t) (hready : Channel.queued s2.m ≠ [] ∨ ∀ i, ¬ Channel.Alive s2.m i) (hrest : ∀ i, Channel.step n s2.m (.go i) = none) :
    EspSyncPreempts raw ep q (EspSync.channel T n (espSysCfg ep)) s2 as2 s3 :=
  espSyncPreempts h hn ht hr rfl (EspSync.C104_recv_ready (espSync_wellFormed h hn hcol ht0 rfl) hw hpoll hp hready hrest)

/-- **C104** (accepted applications, `Channel`, receiver, send returned) as `EspSync.C104_recv_returned`. -/
theorem C104_app_recv_returned (h : expandEsp chip fc raw = .ok ep) (hn : ep.code.handlerCount ≤ chip.count) (hcol : NoCollision raw) {t0 : Nat} (ht0 : t0 ≤ 1) {t : Ident} {q : Nat} {args : List TaskArg} (ht : TaskIs raw t .software q args) {d : Nat} (hr : Runs ep.code d t) {ts : List Nat} {n i : Nat} {st s2 s3} {tr0 tr1 tr2 b1 b2} {as2}
    (hw : EspSync.Waits (EspSync.channel T n (espSysCfg ep)) t0 d t ts st s2 s3 tr0 tr1 tr2 (b1 ++ .m (.reg t) :: b2) as2) (hlast : ∀ w, .m (.reg w) ∉ b2) (hret : .m (.sendOk i) ∈ b2) : EspSyncPreempts raw ep q (EspSync.channel T n (espSysCfg ep)) s2 as2 s3 :=
  espSyncPreempts h hn ht hr rfl (EspSync.C104_recv_returned (espSync_wellFormed h hn hcol ht0 rfl) hw hlast hret)

/-- **C104** (accepted applications, `Channel`, sender) as `EspSync.C104_send_ready`. -/
theorem C104_app_send_ready (h : expandEsp chip fc raw = .ok ep) (hn : ep.code.handlerCount ≤ chip.count) (hcol : NoCollision raw) {t0 : Nat} (ht0 : t0 ≤ 1) {t : Ident} {q : Nat} {args : List TaskArg} (ht : TaskIs raw t .software q args) {d : Nat} (hr : Runs ep.code d t) {ts : List Nat} {n i w : Nat} {v : T} {st s2 s3} {tr0 tr1 tr2 b1 b2} {as2}
    (hw : EspSync.Waits (EspSync.channel T n (espSysCfg ep)) t0 d t ts st s2 s3 tr0 tr1 tr2 (b1 ++ .act (.poll i w) :: b2) as2) (hsame : ∀ v, .act (.startSend i v) ∉ b2) (hp : s2.m.snd i = .snd v) (hwk : ∀ w, .act (.poll i w) ∈ tr0 ++ tr1 → w = t)
    (hready : ∃ s' e, Channel.step n s2.m (.poll i t) = some (s', e) ∧ s'.snd i ≠ .snd v) (hrest : Channel.step n s2.m .goR = none) : EspSyncPreempts raw ep q (EspSync.channel T n (espSysCfg ep)) s2 as2 s3 :=
  espSyncPreempts h hn ht hr rfl (EspSync.C104_send_ready (espSync_wellFormed h hn hcol ht0 rfl) hw hsame hp hwk hready hrest)

/-- **C104** (accepted applications, `Arbiter`) as `EspSync.C104_access_ready`. -/
theorem C104_app_access_ready (h : expandEsp chip fc raw = .ok ep) (hn : ep.code.handlerCount ≤ chip.count) (hcol : NoCollision raw) {t0 : Nat} (ht0 : t0 ≤ 1) {t : Ident} {q : Nat} {args : List TaskArg} (ht : TaskIs raw t .software q args) {d : Nat} (hr : Runs ep.code d t) {ts : List Nat} {i w : Nat} {st s2 s3} {tr0 tr1 tr2 b1 b2} {as2}
    (hw : EspSync.Waits (EspSync.arbiter (espSysCfg ep)) t0 d t ts st s2 s3 tr0 tr1 tr2 (b1 ++ .act (.poll i w) :: b2) as2) (hsame : .act (.access i) ∉ b2) (hp : s2.m.pc i = .fut) (hwk : ∀ w, .act (.poll i w) ∈ tr0 ++ tr1 → w = t)
    (hready : ∃ s', Arbiter.step s2.m (.poll i t) = some (s', [.acquired i])) : EspSyncPreempts raw ep q (EspSync.arbiter (espSysCfg ep)) s2 as2 s3 :=
  espSyncPreempts h hn ht hr rfl (EspSync.C104_access_ready (espSync_wellFormed h hn hcol ht0 rfl) hw hsame hp hwk hready)

/-! ### Example: in the application `exRaw`, task 22 of priority 1 (handler 51) awaits `recv()`, hardware task 20 of priority 2 (handler 61) sends -/

/-- idle spawns task 22, which awaits `recv()`; hardware task 20 sends 42 and returns to idle -/
def exEspRecvActs : List (EspSync.Act (Channel.Act Nat)) :=
  EspSync.pollIt 51 22 ++ [.op (.pollRecv 22), .op .goR, .op .goR, .op .goR] ++ EspSync.backFrom 51 ++ EspSync.enterHw 61 ++ [.op (.startTry 0 42), .op (.go 0), .op (.go 0), .op (.go 0), .op (.go 0), .op (.go 0), .op (.go 0)] ++ EspSync.retHw 51

/-- the hypotheses of `C104_app_recv_returned` are met; idle is at the processor, and cannot make a step -/
example : ∃ s tr b1 b2, Runs exProg 51 22 ∧ EspSync.Waits (EspSync.channel Nat 1 (espSysCfg exEsp)) 1 51 22 [22] (EspSync.startOf (Channel.init 1)) s s [] tr [] (b1 ++ .m (.reg 22) :: b2) [] ∧ (∀ w, .m (.reg w) ∉ b2) ∧ .m (.sendOk 0) ∈ b2 ∧
    Esp32.top s.y.m.stack = some 0 ∧ EspSyncPreempts exRaw exEsp 1 (EspSync.channel Nat 1 (espSysCfg exEsp)) s [] s := by
  have hr : Runs exProg 51 22 := .inr ⟨1, [22], by decide, by decide⟩
  have hwf := espSync_wellFormed (c := EspSync.channel Nat 1 (espSysCfg exEsp)) exEsp_accepted (by decide +kernel) exRaw_noCollision (Nat.le_refl 1) rfl
  obtain ⟨s, tr, -, hw, h0, -⟩ := EspSync.run_waits (d := 51) (t := 22) (ts := [22]) hwf (u0 := fun _ _ => false) (fun _ _ h => by cases h) exEspSmall (by decide) (by decide) (by decide +kernel) (f := fun _ => true) (as := exEspRecvActs) (a := [.ex 51 (.ok 22 5), .ex 51 (.started 22 5)])
    (b := [.act (.pollRecv 22), .act .goR] ++ .m (.reg 22) :: [.act .goR, .act .goR, .m .recvPending, .act (.startTry 0 42), .m (.start 0 42), .act (.go 0), .act (.go 0), .act (.go 0), .act (.go 0), .act (.go 0), .m (.enq 0 42), .act (.go 0), .m (.wokeR 22), .m (.sendOk 0)])
    (by decide +kernel) (by simp) (by simp)
  have ht : TaskIs exRaw 22 .software 1 [.priority 1, .shared [(10, .exclusive)], .locals [(13, .external)]] := .software (as := true) (ins := [40]) (ok := true) (by simp [exRaw]) (by simp) (.inl (by simp))
  exact ⟨s, tr, _, _, hr, hw, by simp, by simp, h0, C104_app_recv_returned exEsp_accepted (by decide +kernel) exRaw_noCollision (Nat.le_refl 1) ht hr (i := 0) hw (by simp) (by simp)⟩

end Verif.EndToEnd
