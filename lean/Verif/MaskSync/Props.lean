import Verif.MaskSync.Generic
import Verif.Await.Returned

/-! # C103: a task whose awaited future is ready runs before anything of lower priority (source masking)

`Waits` describes the situation; the theorems conclude `Preempts`. -/

namespace Verif.MaskSync

open Verif
open Verif.Sync (Ev evP initAct SinceLastPoll mem_evP_act mem_evP_m since_evP evP_mid_m evP_mid_act)

variable {S A E : Type}

/-- A running application: started in `st` (`init` has history `tr0`), it has reached `s2` (history `tr1`). `t` is a task of dispatcher `d`, of priority 1 or more; `b` is what happened since it was polled latest; no call of `spawn` or of a waker of `t` is under way in `s2`. From `s2` the execution goes on to
`s3` (history `tr2`), and `t` is not polled meanwhile, nor does it complete (in case it is just being polled). There is no poll of an uninitialised task (C38). -/
structure Waits (c : Cfg S A E) (e0 : SourceMask.Regs) (d t : Nat) (ts : List Nat) (st s2 s3 : St S) (tr0 tr1 tr2 b : List (Ev A E)) (as2 : List (Act A)) : Prop where
  start : Start c e0 st tr0
  run1 : ∃ as1, Exec c st as1 tr1 s2
  task : c.sys.tasks d = some ts
  mem : t ∈ ts
  prio : 1 ≤ c.sys.sm.prio d
  since : SinceLastPoll d t (tr0 ++ tr1) b
  idle : Await.NoCall t (s2.y.ex d)
  run2 : Exec c s2 as2 tr2 s3
  notPolled : .ex d (.polled t) ∉ tr2
  notCompleted : .ex d (.completed t) ∉ tr2
  noBad : ∀ t', .ex d (.badPoll t') ∉ tr0 ++ tr1 ++ tr2

theorem waits_preempts {c : Cfg S A E} {e0 : SourceMask.Regs} {d : Nat} (hwf : WellFormed c e0 d) {t : Nat} {ts : List Nat} {st s2 s3 : St S} {tr0 tr1 tr2 b : List (Ev A E)} {as2 : List (Act A)} (h : Waits c e0 d t ts st s2 s3 tr0 tr1 tr2 b as2)
    (hw : Await.Reach (c.await d ts) ⟨s2.m, s2.y.ex d⟩ (evP d (tr0 ++ tr1)) → Await.SinceLastPoll t (evP d (tr0 ++ tr1)) (evP d b) → ∃ e, c.woke e = some t ∧ .m e ∈ evP d b) : Preempts c d ts s2 as2 s3 := by
  obtain ⟨as1, hx1⟩ := h.run1
  exact woken_preempts hwf h.start hx1 h.task h.mem h.prio h.since (hw (await_reach hwf h.start hx1 h.task) (since_evP h.since)) h.idle h.run2 h.notPolled h.notCompleted h.noBad

/-! ## Signal -/

section
variable {T : Type}

/-- An application with a signal. -/
def signal (T : Type) (sys : MaskSystem.Cfg) : Cfg (Signal.St T) (Signal.Act T) (Signal.Ev T) :=
  { sys := sys, m := Signal.step, m0 := Signal.init, woke := (Await.signal T ⟨[], false⟩).woke }

theorem signal_await (sys : MaskSystem.Cfg) (d : Nat) (ts : List Nat) : (signal T sys).await d ts = Await.signal T (sys.exec d ts) := rfl

/-- **C103** (`Signal`, value present) Task `t` awaits `wait()` or `wait_fresh()`, the signal holds a value, and no `write` is under way: nothing of lower priority than the task runs before the task is polled. -/
theorem C103_signal_ready_partial {sys : MaskSystem.Cfg} {e0 : SourceMask.Regs} {d : Nat} (hwf : WellFormed (signal T sys) e0 d) {t w : Nat} {ts : List Nat} {f : Bool} {st s2 s3} {tr0 tr1 tr2 b} {as2} (h : Waits (signal T sys) e0 d t ts st s2 s3 tr0 tr1 tr2 b as2)
    (hpoll : .act (.poll w) ∈ b) (hp : s2.m.rx = .pend f t) (hready : s2.m.store ≠ none) (hrest : ∀ i, s2.m.wr i = false) : Preempts (signal T sys) d ts s2 as2 s3 :=
  waits_preempts hwf h fun hx hb => Await.signal_woken (xc := sys.exec d ts) hx hb (mem_evP_act.2 hpoll) hp hready hrest

/-- **C103** (`Signal`, write returned) Task `t` has registered its waker in its latest poll, nobody has registered another one since, and a `write` (or `clear`) has returned since. Then nothing of lower priority than the task runs before the task is polled; other writers may be suspended anywhere. -/
theorem C103_signal_returned_partial {sys : MaskSystem.Cfg} {e0 : SourceMask.Regs} {d : Nat} (hwf : WellFormed (signal T sys) e0 d) {t i : Nat} {ts : List Nat} {st s2 s3} {tr0 tr1 tr2 b1 b2} {as2} (h : Waits (signal T sys) e0 d t ts st s2 s3 tr0 tr1 tr2 (b1 ++ .m (.reg t) :: b2) as2)
    (hlast : ∀ w, .m (.reg w) ∉ b2) (hret : .act (.wake i) ∈ b2) : Preempts (signal T sys) d ts s2 as2 s3 :=
  waits_preempts hwf h fun hx hb => by
    rw [evP_mid_m] at hb ⊢
    exact Await.signal_returned (xc := sys.exec d ts) hx hb (fun w hw => hlast w (mem_evP_m.1 hw)) (mem_evP_act.2 hret)

/-! ## Watch -/

/-- An application with a watch. -/
def watch (T : Type) (sys : MaskSystem.Cfg) : Cfg (Watch.St T) (Watch.Act T) (Watch.Ev T) :=
  { sys := sys, m := Watch.step, m0 := Watch.init, woke := (Await.watch T ⟨[], false⟩).woke }

/-- **C103** (`Watch`, write returned) Task `t` has registered its waker in its latest poll of `changed()`, nobody has registered another one since, and a `write` has returned since. Then nothing of lower priority than the task runs before the task is polled. -/
theorem C103_watch_returned_partial {sys : MaskSystem.Cfg} {e0 : SourceMask.Regs} {d : Nat} (hwf : WellFormed (watch T sys) e0 d) {t i : Nat} {ts : List Nat} {st s2 s3} {tr0 tr1 tr2 b1 b2} {as2} (h : Waits (watch T sys) e0 d t ts st s2 s3 tr0 tr1 tr2 (b1 ++ .m (.reg t) :: b2) as2)
    (hlast : ∀ w, .m (.reg w) ∉ b2) (hret : .act (.wake i) ∈ b2) : Preempts (watch T sys) d ts s2 as2 s3 :=
  waits_preempts hwf h fun hx hb => by
    rw [evP_mid_m] at hb ⊢
    exact Await.watch_returned (xc := sys.exec d ts) hx hb (fun w hw => hlast w (mem_evP_m.1 hw)) (mem_evP_act.2 hret)

/-! ## Channel -/

/-- An application with a channel of capacity `n`. -/
def channel (T : Type) (n : Nat) (sys : MaskSystem.Cfg) : Cfg (Channel.St T) (Channel.Act T) (Channel.Ev T) :=
  { sys := sys, m := Channel.step n, m0 := Channel.init n, woke := (Await.channel T n ⟨[], false⟩).woke }

/-- **C103** (`Channel`, receiver, value queued) Task `t` awaits `recv()`; a value is queued, or there is no sender left; no sender is in the middle of an operation. Nothing of lower priority than the task runs before the task is polled. -/
theorem C103_recv_ready_partial {n : Nat} {sys : MaskSystem.Cfg} {e0 : SourceMask.Regs} {d : Nat} (hwf : WellFormed (channel T n sys) e0 d) {t w : Nat} {ts : List Nat} {st s2 s3} {tr0 tr1 tr2 b} {as2} (h : Waits (channel T n sys) e0 d t ts st s2 s3 tr0 tr1 tr2 b as2)
    (hpoll : .act (.pollRecv w) ∈ b) (hp : s2.m.rx = .pend t) (hready : Channel.queued s2.m ≠ [] ∨ ∀ i, ¬ Channel.Alive s2.m i) (hrest : ∀ i, Channel.step n s2.m (.go i) = none) : Preempts (channel T n sys) d ts s2 as2 s3 :=
  waits_preempts hwf h fun hx hb => Await.recv_woken (xc := sys.exec d ts) hx hb (mem_evP_act.2 hpoll) hp hready hrest

/-- **C103** (`Channel`, receiver, send returned) Task `t` has registered its waker in its latest poll of `recv()`, and a `send` or `try_send` has returned `Ok` since. Nothing of lower priority than the task runs before the task is polled; other senders may be suspended anywhere. -/
theorem C103_recv_returned_partial {n : Nat} {sys : MaskSystem.Cfg} {e0 : SourceMask.Regs} {d : Nat} (hwf : WellFormed (channel T n sys) e0 d) {t i : Nat} {ts : List Nat} {st s2 s3} {tr0 tr1 tr2 b1 b2} {as2} (h : Waits (channel T n sys) e0 d t ts st s2 s3 tr0 tr1 tr2 (b1 ++ .m (.reg t) :: b2) as2)
    (hlast : ∀ w, .m (.reg w) ∉ b2) (hret : .m (.sendOk i) ∈ b2) : Preempts (channel T n sys) d ts s2 as2 s3 :=
  waits_preempts hwf h fun hx hb => by
    rw [evP_mid_m] at hb ⊢
    exact Await.recv_returned (xc := sys.exec d ts) hx hb (fun w hw => hlast w (mem_evP_m.1 hw)) (mem_evP_m.2 hret)

/-- **C103** (`Channel`, sender) Task `t` awaits `send(v)` of sender `i`; there is room for its value, or the receiver is gone: the next poll of its future would complete; no operation of the receiver is under way. Nothing of lower priority than the task runs before the task is polled. -/
theorem C103_send_ready_partial {n : Nat} {sys : MaskSystem.Cfg} {e0 : SourceMask.Regs} {d : Nat} (hwf : WellFormed (channel T n sys) e0 d) {t i w : Nat} {ts : List Nat} {v : T} {st s2 s3} {tr0 tr1 tr2 b1 b2} {as2} (h : Waits (channel T n sys) e0 d t ts st s2 s3 tr0 tr1 tr2 (b1 ++ .act (.poll i w) :: b2) as2)
    (hsame : ∀ v, .act (.startSend i v) ∉ b2) (hp : s2.m.snd i = .snd v) (hw : ∀ w, .act (.poll i w) ∈ tr0 ++ tr1 → w = t) (hready : ∃ s' e, Channel.step n s2.m (.poll i t) = some (s', e) ∧ s'.snd i ≠ .snd v)
    (hrest : Channel.step n s2.m .goR = none) : Preempts (channel T n sys) d ts s2 as2 s3 :=
  waits_preempts hwf h fun hx hb => by
    rw [evP_mid_act] at hb ⊢
    exact Await.send_woken (xc := sys.exec d ts) hx hb (fun v hv => hsame v (mem_evP_act.1 hv)) hp (fun w hw' => hw w (mem_evP_act.1 hw')) hready hrest

end

/-! ## Arbiter -/

/-- An application with an arbiter. -/
def arbiter (sys : MaskSystem.Cfg) : Cfg Arbiter.St Arbiter.Act Arbiter.Ev :=
  { sys := sys, m := Arbiter.step, m0 := Arbiter.init, woke := (Await.arbiter ⟨[], false⟩).woke }

/-- **C103** (`Arbiter`) Task `t` awaits `access()` as client `i`, and the next poll would obtain the access. Nothing of lower priority than the task runs before the task is polled. -/
theorem C103_access_ready_partial {sys : MaskSystem.Cfg} {e0 : SourceMask.Regs} {d : Nat} (hwf : WellFormed (arbiter sys) e0 d) {t i w : Nat} {ts : List Nat} {st s2 s3} {tr0 tr1 tr2 b1 b2} {as2} (h : Waits (arbiter sys) e0 d t ts st s2 s3 tr0 tr1 tr2 (b1 ++ .act (.poll i w) :: b2) as2)
    (hsame : .act (.access i) ∉ b2) (hp : s2.m.pc i = .fut) (hw : ∀ w, .act (.poll i w) ∈ tr0 ++ tr1 → w = t) (hready : ∃ s', Arbiter.step s2.m (.poll i t) = some (s', [.acquired i])) : Preempts (arbiter sys) d ts s2 as2 s3 :=
  waits_preempts hwf h fun hx hb => by
    rw [evP_mid_act] at hb ⊢
    exact Await.access_woken (xc := sys.exec d ts) hx hb (fun h => hsame (mem_evP_act.1 h)) hp (fun w hw' => hw w (mem_evP_act.1 hw')) hready

/-- **C103** (consequence) If nothing of lower priority is inside a critical section blocking the task in `s2`, no code of lower priority makes a step before the task is polled. -/
theorem C103_runs_first_partial {c : Cfg S A E} {d : Nat} {ts : List Nat} {s2 s3 : St S} {as : List (Act A)} (h : Preempts c d ts s2 as s3) (hb : ¬ SourceMask.BlockedP c.sys.sm d s2.y.m.stack) {a : Act A} {ev : List (Ev A E)} {s4 : St S} {cur : Nat}
    (hs : Step c s3 a ev s4) (hown : a.own = true) (ht : SourceMask.top s3.y.m.stack = some cur) : c.sys.sm.prio d ≤ c.sys.sm.prio cur := runs_first h hb hs hown ht

end Verif.MaskSync
