import Verif.EndToEnd.System
import Verif.Sync.Run
import Verif.EndToEnd.MaskSystem

/-!
# C95 for accepted applications: a task whose awaited future is ready runs before any task of lower priority
-/

namespace Verif.EndToEnd

open Verif.Analysis

variable {tg : Target} {bits : Nat} {raw : Raw} {p : Program} {S A E T : Type}

/-- a task is polled by one handler -/
theorem polledBy_one (h : expand tg bits raw = .ok p) {d d' : Nat} {ts ts' : List Ident} {t : Ident} (hd : polledBy p d = some ts) (hd' : polledBy p d' = some ts') (ht : t ∈ ts) (ht' : t ∈ ts') : d = d' := by
  have find : ∀ {n : Nat} {l : List Ident}, polledBy p n = some l → ∃ q, (vecOf n, q, l) ∈ p.dispatchers := by
    intro n l hn
    simp only [polledBy, Option.map_eq_some_iff] at hn
    obtain ⟨⟨o, q, l'⟩, hf, rfl⟩ := hn
    have h1 := List.find?_some hf
    simp only [decide_eq_true_eq] at h1
    subst h1
    exact ⟨q, List.mem_of_find?_eq_some hf⟩
  obtain ⟨q, hm⟩ := find hd
  obtain ⟨q', hm'⟩ := find hd'
  have hsw : ∃ args, TaskIs raw t .software q args := by
    obtain ⟨app, base, an, he⟩ := expand_ok h
    have hg := codegen_ok he.codegen
    obtain ⟨-, rfl, -⟩ := (mem_dispatchers hg).mp hm
    obtain ⟨st, hst, rfl⟩ := mem_channelTasks.mp ht
    obtain ⟨args, ha, -⟩ := he.says.sw _ _ hst
    exact ⟨args, ha⟩
  obtain ⟨args, hsw⟩ := hsw
  obtain ⟨o, l, -, -, -, hu⟩ := C44_task_polled_by_own_dispatcher h hsw
  have e1 := (hu _ _ _ hm ht).1
  have e2 := (hu _ _ _ hm' ht').1
  rw [← e2] at e1
  cases d <;> cases d' <;> simp only [vecOf] at e1 <;> first | rfl | (cases e1; rfl) | cases e1

/-- the situation of C95 in an accepted application is covered by the machine -/
theorem sync_wellFormed (h : expand tg bits raw = .ok p) (hb : bits ≤ 7) (hcol : NoCollision raw) {c : Sync.Cfg S A E} (hc : c.sys = sysCfg bits p) : Sync.WellFormed c := by
  refine ⟨by rw [hc]; exact appCfg_wellFormed h hb hcol, by rw [hc]; rfl, ?_⟩
  intro d d' ts ts' t hd hd' ht ht'
  rw [hc] at hd hd'
  exact polledBy_one h hd hd' ht ht'

/-- What the theorems below say of the tasks of the application: from `s2` to `s3` no task of a lower priority than `q` was started, and one that runs next is inside a critical section it had entered before `s2`, and that blocks priority `q`. -/
structure SyncPreempts (raw : Raw) (bits : Nat) (p : Program) (q : Nat) (c : Sync.Cfg S A E) (s2 : Sync.St S) (as : List (Sync.Act A)) (s3 : Sync.St S) : Prop where
  starts : ∀ n' t' k' q' args', .sys (.irq n') ∈ as → Runs p n' t' → TaskIs raw t' k' q' args' → q ≤ q'
  next : ∀ a ev s4 n' t' k' q' args', Sync.Step c s3 a ev s4 → a.own = true → Srp.top s3.y.m.stack = some n' → Runs p n' t' → TaskIs raw t' k' q' args' → q' < q →
    ∃ x below, Srp.BlockedAt (appCfg bits p) q x below ∧ (x :: below) <:+ s2.y.m.stack ∧ (x :: below) <:+ s3.y.m.stack

theorem syncPreempts (h : expand tg bits raw = .ok p) {t : Ident} {q : Nat} {args : List TaskArg} (ht : TaskIs raw t .software q args) {d : Nat} (hr : Runs p d t) {c : Sync.Cfg S A E} (hc : c.sys = sysCfg bits p) {ts : List Nat} {s2 s3 : Sync.St S} {as : List (Sync.Act A)}
    (hp : Sync.Preempts c d ts s2 as s3) : SyncPreempts raw bits p q c s2 as s3 := by
  have prio : ∀ {n' t' k' q' args'}, Runs p n' t' → TaskIs raw t' k' q' args' → q' = handlerPrio p n' := by
    intro n' t' k' q' args' hr ht
    obtain ⟨_, _, h2⟩ := runs_prio h hr
    exact (task_unique h ht h2).2
  have hq := prio hr ht
  have e : c.sys.srp = appCfg bits p := by rw [hc]; rfl
  refine ⟨?_, ?_⟩
  · intro n' t' k' q' args' hm hr ht
    have := hp.starts _ hm
    rw [e] at this
    rw [prio hr ht, hq]
    exact this
  · intro a ev s4 n' t' k' q' args' hs ho htop hr ht hlt
    rw [prio hr ht] at hlt
    have := hp.next a ev s4 n' hs ho htop
    rw [e] at this
    rcases this with hle | hb
    · exact absurd hle (by show ¬ handlerPrio p d ≤ handlerPrio p n'; omega)
    · rw [hq]; exact hb

/-! In each theorem: an accepted application without shared and local resources of the same name, a software task `t` of priority `q ≥ 1` polled by handler `d`, and the situation of `Sync.Waits`. -/

/-- **C95** (accepted applications, `Signal`, value present) as `Sync.C95_signal_ready`. -/
theorem C95_app_signal_ready (h : expand tg bits raw = .ok p) (hb : bits ≤ 7) (hcol : NoCollision raw) {t : Ident} {q : Nat} {args : List TaskArg} (ht : TaskIs raw t .software q args) {d : Nat} (hr : Runs p d t) {ts : List Nat} {w : Nat} {f : Bool} {st s2 s3} {tr0 tr1 tr2 b} {as2}
    (hw : Sync.Waits (Sync.signal T (sysCfg bits p)) d t ts st s2 s3 tr0 tr1 tr2 b as2) (hpoll : .act (.poll w) ∈ b) (hp : s2.m.rx = .pend f t) (hready : s2.m.store ≠ none) (hrest : ∀ i, s2.m.wr i = false) :
    SyncPreempts raw bits p q (Sync.signal T (sysCfg bits p)) s2 as2 s3 :=
  syncPreempts h ht hr rfl (Sync.C95_signal_ready (sync_wellFormed h hb hcol rfl) hw hpoll hp hready hrest)

/-- **C95** (accepted applications, `Signal`, write returned) as `Sync.C95_signal_returned`. -/
theorem C95_app_signal_returned (h : expand tg bits raw = .ok p) (hb : bits ≤ 7) (hcol : NoCollision raw) {t : Ident} {q : Nat} {args : List TaskArg} (ht : TaskIs raw t .software q args) {d : Nat} (hr : Runs p d t) {ts : List Nat} {i : Nat} {st s2 s3} {tr0 tr1 tr2 b1 b2} {as2}
    (hw : Sync.Waits (Sync.signal T (sysCfg bits p)) d t ts st s2 s3 tr0 tr1 tr2 (b1 ++ .m (.reg t) :: b2) as2) (hlast : ∀ w, .m (.reg w) ∉ b2) (hret : .act (.wake i) ∈ b2) : SyncPreempts raw bits p q (Sync.signal T (sysCfg bits p)) s2 as2 s3 :=
  syncPreempts h ht hr rfl (Sync.C95_signal_returned (sync_wellFormed h hb hcol rfl) hw hlast hret)

/-- **C95** (accepted applications, `Watch`, write returned) as `Sync.C95_watch_returned`. -/
theorem C95_app_watch_returned (h : expand tg bits raw = .ok p) (hb : bits ≤ 7) (hcol : NoCollision raw) {t : Ident} {q : Nat} {args : List TaskArg} (ht : TaskIs raw t .software q args) {d : Nat} (hr : Runs p d t) {ts : List Nat} {i : Nat} {st s2 s3} {tr0 tr1 tr2 b1 b2} {as2}
    (hw : Sync.Waits (Sync.watch T (sysCfg bits p)) d t ts st s2 s3 tr0 tr1 tr2 (b1 ++ .m (.reg t) :: b2) as2) (hlast : ∀ w, .m (.reg w) ∉ b2) (hret : .act (.wake i) ∈ b2) : SyncPreempts raw bits p q (Sync.watch T (sysCfg bits p)) s2 as2 s3 :=
  syncPreempts h ht hr rfl (Sync.C95_watch_returned (sync_wellFormed h hb hcol rfl) hw hlast hret)

/-- **C95** (accepted applications, `Channel`, receiver, value queued) as `Sync.C95_recv_ready`. -/
theorem C95_app_recv_ready (h : expand tg bits raw = .ok p) (hb : bits ≤ 7) (hcol : NoCollision raw) {t : Ident} {q : Nat} {args : List TaskArg} (ht : TaskIs raw t .software q args) {d : Nat} (hr : Runs p d t) {ts : List Nat} {n w : Nat} {st s2 s3} {tr0 tr1 tr2 b} {as2}
    (hw : Sync.Waits (Sync.channel T n (sysCfg bits p)) d t ts st s2 s3 tr0 tr1 tr2 b as2) (hpoll : .act (.pollRecv w) ∈ b) (hp : s2.m.rx = .pend t) (hready : Channel.queued s2.m ≠ [] ∨ ∀ i, ¬ Channel.Alive s2.m i) (hrest : ∀ i, Channel.step n s2.m (.go i) = none) :
    SyncPreempts raw bits p q (Sync.channel T n (sysCfg bits p)) s2 as2 s3 :=
  syncPreempts h ht hr rfl (Sync.C95_recv_ready (sync_wellFormed h hb hcol rfl) hw hpoll hp hready hrest)

/-- **C95** (accepted applications, `Channel`, receiver, send returned) as `Sync.C95_recv_returned`. -/
theorem C95_app_recv_returned (h : expand tg bits raw = .ok p) (hb : bits ≤ 7) (hcol : NoCollision raw) {t : Ident} {q : Nat} {args : List TaskArg} (ht : TaskIs raw t .software q args) {d : Nat} (hr : Runs p d t) {ts : List Nat} {n i : Nat} {st s2 s3} {tr0 tr1 tr2 b1 b2} {as2}
    (hw : Sync.Waits (Sync.channel T n (sysCfg bits p)) d t ts st s2 s3 tr0 tr1 tr2 (b1 ++ .m (.reg t) :: b2) as2) (hlast : ∀ w, .m (.reg w) ∉ b2) (hret : .m (.sendOk i) ∈ b2) : SyncPreempts raw bits p q (Sync.channel T n (sysCfg bits p)) s2 as2 s3 :=
  syncPreempts h ht hr rfl (Sync.C95_recv_returned (sync_wellFormed h hb hcol rfl) hw hlast hret)

/-- **C95** (accepted applications, `Channel`, sender) as `Sync.C95_send_ready`. -/
theorem C95_app_send_ready (h : expand tg bits raw = .ok p) (hb : bits ≤ 7) (hcol : NoCollision raw) {t : Ident} {q : Nat} {args : List TaskArg} (ht : TaskIs raw t .software q args) {d : Nat} (hr : Runs p d t) {ts : List Nat} {n i w : Nat} {v : T} {st s2 s3} {tr0 tr1 tr2 b1 b2} {as2}
    (hw : Sync.Waits (Sync.channel T n (sysCfg bits p)) d t ts st s2 s3 tr0 tr1 tr2 (b1 ++ .act (.poll i w) :: b2) as2) (hsame : ∀ v, .act (.startSend i v) ∉ b2) (hp : s2.m.snd i = .snd v) (hwk : ∀ w, .act (.poll i w) ∈ tr0 ++ tr1 → w = t)
    (hready : ∃ s' e, Channel.step n s2.m (.poll i t) = some (s', e) ∧ s'.snd i ≠ .snd v) (hrest : Channel.step n s2.m .goR = none) : SyncPreempts raw bits p q (Sync.channel T n (sysCfg bits p)) s2 as2 s3 :=
  syncPreempts h ht hr rfl (Sync.C95_send_ready (sync_wellFormed h hb hcol rfl) hw hsame hp hwk hready hrest)

/-- **C95** (accepted applications, `Arbiter`) as `Sync.C95_access_ready`. -/
theorem C95_app_access_ready (h : expand tg bits raw = .ok p) (hb : bits ≤ 7) (hcol : NoCollision raw) {t : Ident} {q : Nat} {args : List TaskArg} (ht : TaskIs raw t .software q args) {d : Nat} (hr : Runs p d t) {ts : List Nat} {i w : Nat} {st s2 s3} {tr0 tr1 tr2 b1 b2} {as2}
    (hw : Sync.Waits (Sync.arbiter (sysCfg bits p)) d t ts st s2 s3 tr0 tr1 tr2 (b1 ++ .act (.poll i w) :: b2) as2) (hsame : .act (.access i) ∉ b2) (hp : s2.m.pc i = .fut) (hwk : ∀ w, .act (.poll i w) ∈ tr0 ++ tr1 → w = t)
    (hready : ∃ s', Arbiter.step s2.m (.poll i t) = some (s', [.acquired i])) : SyncPreempts raw bits p q (Sync.arbiter (sysCfg bits p)) s2 as2 s3 :=
  syncPreempts h ht hr rfl (Sync.C95_access_ready (sync_wellFormed h hb hcol rfl) hw hsame hp hwk hready)

/-! ### Example: in the application `exRaw`, task 22 of priority 1 (handler 51) awaits `recv()`, hardware task 20 of priority 2 (handler 61) sends -/

theorem exSysSmall : System.Small (sysCfg 4 exProg) 63 := by
  have hv : ∀ v : Nat, 62 ≤ v → ¬ UsedVec exProg v := by
    intro v h1 h2
    rcases exUsed h2 with e | e | e | e <;> (have e : (v : Nat) = _ := e; subst e; omega)
  refine ⟨fun n hn => ?_, fun n hn => exSmall.tasks n hn⟩
  exact exSmall.prio n hn

/-- idle spawns task 22, which awaits `recv()`; hardware task 20 sends 42 and returns to idle -/
def exRecvActs : List (Sync.Act (Channel.Act Nat)) :=
  Sync.pollIt 51 22 ++ [.op (.pollRecv 22), .op .goR, .op .goR, .op .goR] ++ Sync.backFrom 51 ++ Sync.enterHw 61 ++ [.op (.startTry 0 42), .op (.go 0), .op (.go 0), .op (.go 0), .op (.go 0), .op (.go 0), .op (.go 0)] ++ Sync.retHw 51

/-- the hypotheses of `C95_app_recv_returned` are met; idle is at the processor, and cannot make a step -/
example : ∃ s tr b1 b2, Runs exProg 51 22 ∧ Sync.Waits (Sync.channel Nat 1 (sysCfg 4 exProg)) 51 22 [22] (Sync.startOf (Channel.init 1)) s s [] tr [] (b1 ++ .m (.reg 22) :: b2) [] ∧ (∀ w, .m (.reg w) ∉ b2) ∧ .m (.sendOk 0) ∈ b2 ∧
    Srp.top s.y.m.stack = some 0 ∧ SyncPreempts exRaw 4 exProg 1 (Sync.channel Nat 1 (sysCfg 4 exProg)) s [] s := by
  have hr : Runs exProg 51 22 := .inr ⟨1, [22], by decide, by decide⟩
  have hwf := sync_wellFormed (c := Sync.channel Nat 1 (sysCfg 4 exProg)) exRaw_accepted (by decide) exRaw_noCollision rfl
  obtain ⟨s, tr, -, hw, h0, -⟩ := Sync.run_waits (d := 51) (t := 22) (ts := [22]) hwf exSysSmall (by decide) (by decide) (by decide) (f := fun _ => true) (as := exRecvActs) (a := [.ex 51 (.ok 22 5), .ex 51 (.started 22 5)])
    (b := [.act (.pollRecv 22), .act .goR] ++ .m (.reg 22) :: [.act .goR, .act .goR, .m .recvPending, .act (.startTry 0 42), .m (.start 0 42), .act (.go 0), .act (.go 0), .act (.go 0), .act (.go 0), .act (.go 0), .m (.enq 0 42), .act (.go 0), .m (.wokeR 22), .m (.sendOk 0)])
    (by decide +kernel) (by simp) (by simp)
  have ht : TaskIs exRaw 22 .software 1 [.priority 1, .shared [(10, .exclusive)], .locals [(13, .external)]] := .software (as := true) (ins := [40]) (ok := true) (by simp [exRaw]) (by simp) (.inl (by simp))
  exact ⟨s, tr, _, _, hr, hw, by simp, by simp, h0, C95_app_recv_returned exRaw_accepted (by decide) exRaw_noCollision ht hr (i := 0) hw (by simp) (by simp)⟩

end Verif.EndToEnd
