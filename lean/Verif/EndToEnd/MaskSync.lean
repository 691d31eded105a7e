import Verif.EndToEnd.Sync
import Verif.EndToEnd.MaskSystem
import Verif.MaskSync.Run

/-!
# C103 for accepted applications (source masking): a task whose awaited future is ready runs before any task of lower priority
-/

namespace Verif.EndToEnd

open Verif.Analysis

variable {tg : Target} {bits : Nat} {raw : Raw} {p : Program} {S A E T : Type}

/-- the situation of C103 in an accepted application is covered by the machine -/
theorem maskSync_wellFormed (h : expand tg bits raw = .ok p) (hcol : NoCollision raw) {t : Ident} {q : Nat} {args : List TaskArg} (ht : TaskIs raw t .software q args) {d : Nat} (hr : Runs p d t) {num : Ident → Nat} {e0 : SourceMask.Regs} (hpl : PlainApp tg num p e0 q) {c : MaskSync.Cfg S A E} (hc : c.sys = maskSysCfg tg num p) :
    MaskSync.WellFormed c e0 d := by
  obtain ⟨ts, h1, h2⟩ := polledBy_of_runs h ht hr
  obtain ⟨_, _, h3⟩ := runs_prio h hr
  obtain rfl : q = handlerPrio p d := (task_unique h ht h3).2
  refine ⟨by rw [hc]; exact maskCfg_wellFormed h hcol num, by rw [hc]; exact plain_of_app h h1 hpl, by rw [hc]; rfl, ?_⟩
  intro d d' ts ts' t hd hd' ht ht'
  rw [hc] at hd hd'
  exact polledBy_one h hd hd' ht ht'

/-- What the theorems below say of the tasks of the application: from `s2` to `s3` no task of a lower priority than `q` was started, and one that runs next is inside a critical section it had entered before `s2`, and that blocks the dispatcher `d` of `t`. -/
structure MaskSyncPreempts (raw : Raw) (tg : Target) (num : Ident → Nat) (p : Program) (d q : Nat) (c : MaskSync.Cfg S A E) (s2 : MaskSync.St S) (as : List (MaskSync.Act A)) (s3 : MaskSync.St S) : Prop where
  starts : ∀ n' t' k' q' args', .sys (.irq n') ∈ as → Runs p n' t' → TaskIs raw t' k' q' args' → q ≤ q'
  next : ∀ a ev s4 n' t' k' q' args', MaskSync.Step c s3 a ev s4 → a.own = true → SourceMask.top s3.y.m.stack = some n' → Runs p n' t' → TaskIs raw t' k' q' args' → q' < q →
    ∃ x' x below, SourceMask.BlockedAt (maskCfg tg num p) d x' below ∧ SourceMask.BlockedAt (maskCfg tg num p) d x below ∧ SourceMask.SameSection x' x ∧ (x' :: below) <:+ s2.y.m.stack ∧ (x :: below) <:+ s3.y.m.stack

theorem maskSyncPreempts (h : expand tg bits raw = .ok p) {t : Ident} {q : Nat} {args : List TaskArg} (ht : TaskIs raw t .software q args) {d : Nat} (hr : Runs p d t) {num : Ident → Nat} {c : MaskSync.Cfg S A E} (hc : c.sys = maskSysCfg tg num p) {ts : List Nat} {s2 s3 : MaskSync.St S} {as : List (MaskSync.Act A)}
    (hp : MaskSync.Preempts c d ts s2 as s3) : MaskSyncPreempts raw tg num p d q c s2 as s3 := by
  have prio : ∀ {n' t' k' q' args'}, Runs p n' t' → TaskIs raw t' k' q' args' → q' = handlerPrio p n' := by
    intro n' t' k' q' args' hr ht
    obtain ⟨_, _, h2⟩ := runs_prio h hr
    exact (task_unique h ht h2).2
  have hq := prio hr ht
  have e : c.sys.sm = maskCfg tg num p := by rw [hc]; rfl
  refine ⟨?_, ?_⟩
  · intro n' t' k' q' args' hm hr ht
    have := hp.starts _ hm
    rw [e] at this
    rw [prio hr ht, hq]
    exact this
  · intro a ev s4 n' t' k' q' args' hs ho htop hr ht hlt
    rw [prio hr ht] at hlt
    have := hp.next a ev s4 n' hs ho htop
    rw [e] at this
    rcases this with hle | hb
    · exact absurd hle (by show ¬ handlerPrio p d ≤ handlerPrio p n'; omega)
    · exact hb

/-! In each theorem: an accepted application without shared and local resources of the same name, all of whose interrupts are enabled and all of whose tasks of lower priority than `q` are bound to interrupts of the same register as `d` (`PlainApp`), a software task `t` of priority `q ≥ 1` polled by handler `d`, and the situation of `MaskSync.Waits`. -/

/-- **C103** (accepted applications, `Signal`, value present) as `MaskSync.C103_signal_ready_partial`. -/
theorem C103_app_signal_ready_partial (h : expand tg bits raw = .ok p) (hcol : NoCollision raw) {num : Ident → Nat} {e0 : SourceMask.Regs} {t : Ident} {q : Nat} (hpl : PlainApp tg num p e0 q) {args : List TaskArg} (ht : TaskIs raw t .software q args) {d : Nat} (hr : Runs p d t) {ts : List Nat} {w : Nat} {f : Bool} {st s2 s3} {tr0 tr1 tr2 b} {as2}
    (hw : MaskSync.Waits (MaskSync.signal T (maskSysCfg tg num p)) e0 d t ts st s2 s3 tr0 tr1 tr2 b as2) (hpoll : .act (.poll w) ∈ b) (hp : s2.m.rx = .pend f t) (hready : s2.m.store ≠ none) (hrest : ∀ i, s2.m.wr i = false) :
    MaskSyncPreempts raw tg num p d q (MaskSync.signal T (maskSysCfg tg num p)) s2 as2 s3 :=
  maskSyncPreempts h ht hr rfl (MaskSync.C103_signal_ready_partial (maskSync_wellFormed h hcol ht hr hpl rfl) hw hpoll hp hready hrest)

/-- **C103** (accepted applications, `Signal`, write returned) as `MaskSync.C103_signal_returned_partial`. -/
theorem C103_app_signal_returned_partial (h : expand tg bits raw = .ok p) (hcol : NoCollision raw) {num : Ident → Nat} {e0 : SourceMask.Regs} {t : Ident} {q : Nat} (hpl : PlainApp tg num p e0 q) {args : List TaskArg} (ht : TaskIs raw t .software q args) {d : Nat} (hr : Runs p d t) {ts : List Nat} {i : Nat} {st s2 s3} {tr0 tr1 tr2 b1 b2} {as2}
    (hw : MaskSync.Waits (MaskSync.signal T (maskSysCfg tg num p)) e0 d t ts st s2 s3 tr0 tr1 tr2 (b1 ++ .m (.reg t) :: b2) as2) (hlast : ∀ w, .m (.reg w) ∉ b2) (hret : .act (.wake i) ∈ b2) : MaskSyncPreempts raw tg num p d q (MaskSync.signal T (maskSysCfg tg num p)) s2 as2 s3 :=
  maskSyncPreempts h ht hr rfl (MaskSync.C103_signal_returned_partial (maskSync_wellFormed h hcol ht hr hpl rfl) hw hlast hret)

/-- **C103** (accepted applications, `Watch`, write returned) as `MaskSync.C103_watch_returned_partial`. -/
theorem C103_app_watch_returned_partial (h : expand tg bits raw = .ok p) (hcol : NoCollision raw) {num : Ident → Nat} {e0 : SourceMask.Regs} {t : Ident} {q : Nat} (hpl : PlainApp tg num p e0 q) {args : List TaskArg} (ht : TaskIs raw t .software q args) {d : Nat} (hr : Runs p d t) {ts : List Nat} {i : Nat} {st s2 s3} {tr0 tr1 tr2 b1 b2} {as2}
    (hw : MaskSync.Waits (MaskSync.watch T (maskSysCfg tg num p)) e0 d t ts st s2 s3 tr0 tr1 tr2 (b1 ++ .m (.reg t) :: b2) as2) (hlast : ∀ w, .m (.reg w) ∉ b2) (hret : .act (.wake i) ∈ b2) : MaskSyncPreempts raw tg num p d q (MaskSync.watch T (maskSysCfg tg num p)) s2 as2 s3 :=
  maskSyncPreempts h ht hr rfl (MaskSync.C103_watch_returned_partial (maskSync_wellFormed h hcol ht hr hpl rfl) hw hlast hret)

/-- **C103** (accepted applications, `Channel`, receiver, value queued) as `MaskSync.C103_recv_ready_partial`. -/
theorem C103_app_recv_ready_partial (h : expand tg bits raw = .ok p) (hcol : NoCollision raw) {num : Ident → Nat} {e0 : SourceMask.Regs} {t : Ident} {q : Nat} (hpl : PlainApp tg num p e0 q) {args : List TaskArg} (ht : TaskIs raw t .software q args) {d : Nat} (hr : Runs p d t) {ts : List Nat} {n w : Nat} {st s2 s3} {tr0 tr1 tr2 b} {as2}
    (hw : MaskSync.Waits (MaskSync.channel T n (maskSysCfg tg num p)) e0 d t ts st s2 s3 tr0 tr1 tr2 b as2) (hpoll : .act (.pollRecv w) ∈ b) (hp : s2.m.rx = .pend t) (hready : Channel.queued s2.m ≠ [] ∨ ∀ i, ¬ Channel.Alive s2.m i) (hrest : ∀ i, Channel.step n s2.m (.go i) = none) :
    MaskSyncPreempts raw tg num p d q (MaskSync.channel T n (maskSysCfg tg num p)) s2 as2 s3 :=
  maskSyncPreempts h ht hr rfl (MaskSync.C103_recv_ready_partial (maskSync_wellFormed h hcol ht hr hpl rfl) hw hpoll hp hready hrest)

/-- **C103** (accepted applications, `Channel`, receiver, send returned) as `MaskSync.C103_recv_returned_partial`. -/
theorem C103_app_recv_returned_partial (h : expand tg bits raw = .ok p) (hcol : NoCollision raw) {num : Ident → Nat} {e0 : SourceMask.Regs} {t : Ident} {q : Nat} (hpl : PlainApp tg num p e0 q) {args : List TaskArg} (ht : TaskIs raw t .software q args) {d : Nat} (hr : Runs p d t) {ts : List Nat} {n i : Nat} {st s2 s3} {tr0 tr1 tr2 b1 b2} {as2}
    (hw : MaskSync.Waits (MaskSync.channel T n (maskSysCfg tg num p)) e0 d t ts st s2 s3 tr0 tr1 tr2 (b1 ++ .m (.reg t) :: b2) as2) (hlast : ∀ w, .m (.reg w) ∉ b2) (hret : .m (.sendOk i) ∈ b2) : MaskSyncPreempts raw tg num p d q (MaskSync.channel T n (maskSysCfg tg num p)) s2 as2 s3 :=
  maskSyncPreempts h ht hr rfl (MaskSync.C103_recv_returned_partial (maskSync_wellFormed h hcol ht hr hpl rfl) hw hlast hret)

/-- **C103** (accepted applications, `Channel`, sender) as `MaskSync.C103_send_ready_partial`. -/
theorem C103_app_send_ready_partial (h : expand tg bits raw = .ok p) (hcol : NoCollision raw) {num : Ident → Nat} {e0 : SourceMask.Regs} {t : Ident} {q : Nat} (hpl : PlainApp tg num p e0 q) {args : List TaskArg} (ht : TaskIs raw t .software q args) {d : Nat} (hr : Runs p d t) {ts : List Nat} {n i w : Nat} {v : T} {st s2 s3} {tr0 tr1 tr2 b1 b2} {as2}
    (hw : MaskSync.Waits (MaskSync.channel T n (maskSysCfg tg num p)) e0 d t ts st s2 s3 tr0 tr1 tr2 (b1 ++ .act (.poll i w) :: b2) as2) (hsame : ∀ v, .act (.startSend i v) ∉ b2) (hp : s2.m.snd i = .snd v) (hwk : ∀ w, .act (.poll i w) ∈ tr0 ++ tr1 → w = t)
    (hready : ∃ s' e, Channel.step n s2.m (.poll i t) = some (s', e) ∧ s'.snd i ≠ .snd v) (hrest : Channel.step n s2.m .goR = none) : MaskSyncPreempts raw tg num p d q (MaskSync.channel T n (maskSysCfg tg num p)) s2 as2 s3 :=
  maskSyncPreempts h ht hr rfl (MaskSync.C103_send_ready_partial (maskSync_wellFormed h hcol ht hr hpl rfl) hw hsame hp hwk hready hrest)

/-- **C103** (accepted applications, `Arbiter`) as `MaskSync.C103_access_ready_partial`. -/
theorem C103_app_access_ready_partial (h : expand tg bits raw = .ok p) (hcol : NoCollision raw) {num : Ident → Nat} {e0 : SourceMask.Regs} {t : Ident} {q : Nat} (hpl : PlainApp tg num p e0 q) {args : List TaskArg} (ht : TaskIs raw t .software q args) {d : Nat} (hr : Runs p d t) {ts : List Nat} {i w : Nat} {st s2 s3} {tr0 tr1 tr2 b1 b2} {as2}
    (hw : MaskSync.Waits (MaskSync.arbiter (maskSysCfg tg num p)) e0 d t ts st s2 s3 tr0 tr1 tr2 (b1 ++ .act (.poll i w) :: b2) as2) (hsame : .act (.access i) ∉ b2) (hp : s2.m.pc i = .fut) (hwk : ∀ w, .act (.poll i w) ∈ tr0 ++ tr1 → w = t)
    (hready : ∃ s', Arbiter.step s2.m (.poll i t) = some (s', [.acquired i])) : MaskSyncPreempts raw tg num p d q (MaskSync.arbiter (maskSysCfg tg num p)) s2 as2 s3 :=
  maskSyncPreempts h ht hr rfl (MaskSync.C103_access_ready_partial (maskSync_wellFormed h hcol ht hr hpl rfl) hw hsame hp hwk hready)

/-! ### Example: in the application `exRaw`, task 22 of priority 1 (handler 51) awaits `recv()`, hardware task 20 of priority 2 (handler 61) sends -/

/-- idle spawns task 22, which awaits `recv()`; hardware task 20 sends 42 and returns to idle -/
def exMaskRecvActs : List (MaskSync.Act (Channel.Act Nat)) :=
  MaskSync.pollIt 51 22 ++ [.op (.pollRecv 22), .op .goR, .op .goR, .op .goR] ++ MaskSync.backFrom 51 ++ MaskSync.enterHw 61 ++ [.op (.startTry 0 42), .op (.go 0), .op (.go 0), .op (.go 0), .op (.go 0), .op (.go 0), .op (.go 0)] ++ MaskSync.retHw 51

/-- the hypotheses of `C103_app_recv_returned_partial` are met; idle is at the processor, and cannot make a step -/
example : ∃ s tr b1 b2, Runs exProg 51 22 ∧ MaskSync.Waits (MaskSync.channel Nat 1 (maskSysCfg exTarget exNum exProg)) exOn 51 22 [22] (MaskSync.startOf exOn (Channel.init 1)) s s [] tr [] (b1 ++ .m (.reg 22) :: b2) [] ∧ (∀ w, .m (.reg w) ∉ b2) ∧ .m (.sendOk 0) ∈ b2 ∧
    SourceMask.top s.y.m.stack = some 0 ∧ MaskSyncPreempts exRaw exTarget exNum exProg 51 1 (MaskSync.channel Nat 1 (maskSysCfg exTarget exNum exProg)) s [] s := by
  have hr : Runs exProg 51 22 := .inr ⟨1, [22], by decide, by decide⟩
  have ht : TaskIs exRaw 22 .software 1 [.priority 1, .shared [(10, .exclusive)], .locals [(13, .external)]] := .software (as := true) (ins := [40]) (ok := true) (by simp [exRaw]) (by simp) (.inl (by simp))
  have hwf := maskSync_wellFormed (c := MaskSync.channel Nat 1 (maskSysCfg exTarget exNum exProg)) exRaw_accepted exRaw_noCollision ht hr (exPlain 1) rfl
  obtain ⟨s, tr, -, hw, h0, -⟩ := MaskSync.run_waits (d := 51) (t := 22) (ts := [22]) hwf (u0 := fun _ _ => false) (fun _ _ h => by cases h) exSmall (by decide) (by decide) (by decide +kernel) (f := fun _ => true) (as := exMaskRecvActs) (a := [.ex 51 (.ok 22 5), .ex 51 (.started 22 5)])
    (b := [.act (.pollRecv 22), .act .goR] ++ .m (.reg 22) :: [.act .goR, .act .goR, .m .recvPending, .act (.startTry 0 42), .m (.start 0 42), .act (.go 0), .act (.go 0), .act (.go 0), .act (.go 0), .act (.go 0), .m (.enq 0 42), .act (.go 0), .m (.wokeR 22), .m (.sendOk 0)])
    (by decide +kernel) (by simp) (by simp)
  exact ⟨s, tr, _, _, hr, hw, by simp, by simp, h0, C103_app_recv_returned_partial exRaw_accepted exRaw_noCollision (exPlain 1) ht hr (i := 0) hw (by simp) (by simp)⟩

end Verif.EndToEnd
