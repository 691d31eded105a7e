import Verif.Signal.Props
import Verif.Watch.Props
import Verif.WaitUntil.Props
import Verif.Arbiter.Props
import Verif.Channel.Props
import Verif.TimerQueue.Props

/-!
# C68: which waker is woken

A future that returned `Pending` may be polled again with another waker; the contract of `Future::poll` is that only the waker
of the most recent poll has to be woken ("By the contract, each poll we should update the waker", comment in
`rtic-common/src/wait_queue.rs`). The theorems below speak about the list of actions of an execution: `lastPoll` reads off the waker of
the most recent poll.
-/

namespace Verif.Wakers

/-- Induction over executions of a machine that keeps the list of actions done so far. -/
theorem history {S A E : Type} {step : S → A → Option (S × List E)} {exec : S → List A → Option (S × List E)}
    (h0 : ∀ s, exec s [] = some (s, []))
    (h1 : ∀ s a as r, exec s (a :: as) = some r → ∃ s1 e es, step s a = some (s1, e) ∧ exec s1 as = some (r.1, es) ∧ r.2 = e ++ es)
    {P : List A → S → List E → Prop}
    (hstep : ∀ as s tr a s' e, P as s tr → step s a = some (s', e) → P (as ++ [a]) s' (tr ++ e)) :
    ∀ (as as0 : List A) (s : S) (tr : List E) (s' : S) (es : List E), P as0 s tr → exec s as = some (s', es) → P (as0 ++ as) s' (tr ++ es)
  | [], as0, s, tr, s', es, h, he => by rw [h0] at he; cases he; simpa using h
  | a :: as, as0, s, tr, s', es, h, he => by
    obtain ⟨s1, e, es', hs, hs2, h2⟩ := h1 _ _ _ _ he
    cases h2
    have := history h0 h1 hstep as (as0 ++ [a]) s1 (tr ++ e) _ es' (hstep _ _ _ _ _ _ h hs) hs2
    simpa using this

/-- The waker of the most recent poll, given which actions are polls. -/
def lastPoll {A : Type} (f : A → Option Nat) (as : List A) : Option Nat := (as.reverse.findSome? f)

theorem lastPoll_snoc {A : Type} (f : A → Option Nat) (as : List A) (a : A) :
    lastPoll f (as ++ [a]) = (f a).or (lastPoll f as) := by
  simp only [lastPoll, List.reverse_append, List.reverse_cons, List.reverse_nil, List.nil_append, List.singleton_append, List.findSome?_cons]
  cases f a <;> rfl

/-! ## `Signal` -/

section
variable {T : Type}

/-- The polls of the reader of a signal. -/
def sigPoll : Signal.Act T → Option Nat
  | .poll w => some w
  | _ => none

/-- **C68** A waiting reader of a `Signal`: the waker recorded for it is that of its most recent poll, and that waker is the one a writer wakes. -/
theorem C68_signal {as : List (Signal.Act T)} {s s' : Signal.St T} {tr e : List (Signal.Ev T)} {f : Bool} {w w' i : Nat}
    (h : Signal.exec Signal.init as = some (s, tr)) (hp : s.rx = .pend f w) (hs : Signal.step s (.wake i) = some (s', e))
    (hw : .woke w' ∈ e) : lastPoll sigPoll as = some w' := by
  have key := history (exec := Signal.exec) (step := Signal.step) (fun _ => rfl)
    (by intro s a as r h; simp only [Signal.exec] at h; grind)
    (P := fun as (s : Signal.St T) _ => (∀ w, s.rx = .fresh1 w → lastPoll sigPoll as = some w) ∧
      (∀ f w, s.rx = .poll0 f w → lastPoll sigPoll as = some w) ∧
      (∀ f w, (s.rx = .poll1 f w ∨ s.rx = .pend f w) → lastPoll sigPoll as = some w ∧ (s.rwk = some w ∨ s.rwk = none)))
    (by
      intro as s tr a s' e hP hs
      rw [lastPoll_snoc]
      cases Signal.tr_of_step hs <;> simp only [sigPoll] <;> grind [Option.or])
    as [] Signal.init [] s tr (by simp [Signal.init]) h
  obtain ⟨-, -, k⟩ := key
  have k := k f w (.inr hp)
  simp only [List.nil_append] at k
  cases Signal.tr_of_step hs <;> grind

/-- A reader polled with waker 1, then with waker 2; the writer wakes waker 2. -/
example : ∃ s s' tr, Signal.exec (T := Nat) Signal.init [.wait, .poll 1, .go, .go, .poll 2, .go, .go, .write 0 (some 7)] = some (s, tr) ∧
    s.rx = .pend false 2 ∧ Signal.step s (.wake 0) = some (s', [.woke 2]) := ⟨_, _, _, rfl, rfl, rfl⟩

/-! ## `Watch` -/

/-- The polls of the reader of a watch. -/
def watchPoll : Watch.Act T → Option Nat
  | .poll w => some w
  | _ => none

/-- **C68** A waiting `changed()` of a `Watch`: a writer wakes the waker of its most recent poll. -/
theorem C68_watch {as : List (Watch.Act T)} {s s' : Watch.St T} {tr e : List (Watch.Ev T)} {w w' i : Nat}
    (h : Watch.exec Watch.init as = some (s, tr)) (hp : s.rx = .pend w) (hs : Watch.step s (.wake i) = some (s', e))
    (hw : .woke w' ∈ e) : lastPoll watchPoll as = some w' := by
  have key := history (exec := Watch.exec) (step := Watch.step) (fun _ => rfl)
    (by intro s a as r h; simp only [Watch.exec] at h; grind)
    (P := fun as (s : Watch.St T) _ => (∀ w, s.rx = .c0 w → lastPoll watchPoll as = some w) ∧
      (∀ w, (s.rx = .c1 w ∨ s.rx = .c2 w ∨ (∃ v, s.rx = .c3 w v) ∨ s.rx = .pend w) →
        lastPoll watchPoll as = some w ∧ (s.rwk = some w ∨ s.rwk = none)))
    (by
      intro as s tr a s' e hP hs
      rw [lastPoll_snoc]
      cases Watch.tr_of_step hs <;> simp only [watchPoll] <;> grind [Option.or])
    as [] Watch.init [] s tr (by simp [Watch.init]) h
  obtain ⟨-, k⟩ := key
  have k := k w (.inr (.inr (.inr hp)))
  simp only [List.nil_append] at k
  cases Watch.tr_of_step hs <;> grind

example : ∃ s s' tr, Watch.exec (T := Nat) Watch.init [.changed, .poll 1, .go, .go, .go, .poll 2, .go, .go, .go, .write 0 7] = some (s, tr) ∧
    s.rx = .pend 2 ∧ Watch.step s (.wake 0) = some (s', [.woke 2]) := ⟨_, _, _, rfl, rfl, rfl⟩

end

/-! ## `wait_until` -/

/-- The polls of waiter `i`. -/
def waitPoll (i : Nat) : WaitUntil.Act → Option Nat
  | .poll j w => if j = i then some w else none
  | _ => none

/-- **C68** `wait_until`: whenever the notifier wakes waiter `i`, it wakes the waker of the most recent poll of `i`. -/
theorem C68_wait_until {as : List WaitUntil.Act} {s s' : WaitUntil.St} {tr e : List WaitUntil.Ev} {i w : Nat}
    (h : WaitUntil.exec WaitUntil.init as = some (s, tr)) (hs : WaitUntil.step s .notify = some (s', e)) (hw : .woke i w ∈ e) :
    lastPoll (waitPoll i) as = some w := by
  have key := history (exec := WaitUntil.exec) (step := WaitUntil.step) (fun _ => rfl)
    (by intro s a as r h; simp only [WaitUntil.exec] at h; grind)
    (P := fun as (s : WaitUntil.St) _ => (∀ i w, (s.pc i = .cleaned w ∨ s.pc i = .checked w ∨ s.pc i = .pend w) → lastPoll (waitPoll i) as = some w) ∧
      (∀ i w, (i, w) ∈ s.q → s.pc i = .pend w))
    (by
      intro as s tr a s' e ⟨h1, h2⟩ hs
      simp only [lastPoll_snoc]
      have hset : ∀ (f : Nat → WaitUntil.Pc) i x j, WaitUntil.set f i x j = if j = i then x else f j := fun _ _ _ _ => rfl
      have hun : ∀ q i x, x ∈ WaitUntil.unlink q i ↔ x ∈ q ∧ x.1 ≠ i := by simp [WaitUntil.unlink]
      cases a with
      | start i => simp only [WaitUntil.step] at hs; split at hs <;> cases hs; simp only [waitPoll]; grind
      | poll i w => simp only [WaitUntil.step] at hs; split at hs <;> cases hs <;> simp only [waitPoll] <;> grind
      | go i =>
        simp only [WaitUntil.step] at hs
        split at hs
        · split at hs <;> cases hs <;> simp only [waitPoll] <;> grind
        · cases hs; simp only [waitPoll]; grind
        · cases hs
      | drop i => simp only [WaitUntil.step] at hs; split at hs <;> cases hs <;> simp only [waitPoll] <;> grind
      | setCond b => cases hs; simp only [waitPoll]; grind
      | notify => simp only [WaitUntil.step] at hs; split at hs <;> cases hs <;> simp only [waitPoll] <;> grind)
    as [] WaitUntil.init [] s tr (by simp [WaitUntil.init]) h
  obtain ⟨k1, k2⟩ := key
  simp only [List.nil_append] at k1
  simp only [WaitUntil.step] at hs
  split at hs <;> cases hs <;> grind

example : ∃ s s' tr, WaitUntil.exec WaitUntil.init [.start 0, .poll 0 1, .go 0, .go 0, .poll 0 2, .go 0, .go 0] = some (s, tr) ∧
    WaitUntil.step s .notify = some (s', [.woke 0 2]) := ⟨_, _, _, rfl, rfl⟩

/-! ## `Receiver::recv` -/

section
variable {T : Type}

/-- The polls of the receiver of a channel. -/
def recvPoll : Channel.Act T → Option Nat
  | .pollRecv w => some w
  | _ => none

/-- The waker the receiver was polled with (proof device). -/
def rxW : Channel.Rx T → Option Nat
  | .poll0 w | .pend w => some w
  | .tr0 m | .got m _ | .rd m _ _ | .empty m => m
  | _ => none

/-- The waker has been registered (proof device). -/
def rxReg : Channel.Rx T → Bool
  | .poll0 _ => false
  | _ => true

theorem rxW_step {n : Nat} {s s' : Channel.St T} {a : Channel.Act T} {e : List (Channel.Ev T)} (hs : Channel.step n s a = some (s', e))
    (ha : recvPoll a = none) : rxW s'.rx = none ∨ rxW s'.rx = rxW s.rx := by
  cases a with
  | pollRecv w => cases ha
  | goR =>
    cases hr : s.rx <;> simp only [Channel.step, Channel.goR, hr] at hs
    case poll0 w => cases hs; simp [rxW]
    case tr0 m => split at hs <;> cases hs <;> simp [rxW]
    case got m x => split at hs <;> cases hs <;> simp [rxW, hr]
    case rd => cases hs; simp [rxW]
    case empty m => split at hs <;> cases hs <;> cases m <;> simp [rxW, Channel.emptyResult]
    case drop0 => cases hs; simp [rxW]
    case drop1 => split at hs <;> cases hs <;> simp [rxW]
    case dgot => split at hs <;> cases hs <;> simp [rxW, hr]
    case drop2 =>
      split at hs
      · split at hs <;> cases hs <;> simp [rxW, hr]
      · cases hs; simp [rxW]
    all_goals cases hs
  | go i =>
    right
    have hret : ∀ (s : Channel.St T) x, (Channel.returnFreeSlot n s x).1.rx = s.rx := by
      intro s x; simp only [Channel.returnFreeSlot]; split <;> (try split) <;> rfl
    have hwk : ∀ (s : Channel.St T), (Channel.wakeR s).1.rx = s.rx := by
      intro s; simp only [Channel.wakeR]; split <;> rfl
    simp only [Channel.step, Channel.goS] at hs
    repeat' split at hs
    all_goals (try cases hs)
    all_goals (try rfl)
    all_goals grind
  | poll i w =>
    simp only [Channel.step] at hs
    split at hs <;> cases hs
    right
    simp only [Channel.pollSend]; (repeat' split) <;> rfl
  | _ =>
    simp only [Channel.step] at hs
    repeat' split at hs
    all_goals cases hs
    all_goals simp_all [rxW]

/-- **C68** A waiting `recv()`: a sender that finishes wakes the waker of the most recent poll of `recv()`. -/
theorem C68_recv {n : Nat} {as : List (Channel.Act T)} {s s' : Channel.St T} {tr e : List (Channel.Ev T)} {w w' i : Nat}
    (h : Channel.exec n (Channel.init n) as = some (s, tr)) (hp : s.rx = .pend w) (hs : Channel.step n s (.go i) = some (s', e))
    (hw : .wokeR w' ∈ e) : lastPoll recvPoll as = some w' := by
  have key := history (exec := Channel.exec n) (step := Channel.step n) (fun _ => rfl)
    (by intro s a as r h; simp only [Channel.exec] at h; grind)
    (P := fun as (s : Channel.St T) _ => (∀ w, rxW s.rx = some w → lastPoll recvPoll as = some w) ∧
      (∀ w, rxReg s.rx = true → rxW s.rx = some w → (s.rwk = some w ∨ s.rwk = none)))
    (by
      intro as s tr a s' e ⟨h1, h2⟩ hs
      simp only [lastPoll_snoc]
      constructor
      · cases hr : recvPoll a with
        | none => have := rxW_step hs hr; grind [Option.or]
        | some w =>
          cases a <;> simp only [recvPoll] at hr <;> cases hr
          simp only [Channel.step] at hs
          split at hs <;> cases hs <;> simp [rxW]
      · clear h1
        cases Channel.trans_of_step hs <;> simp_all [rxW, rxReg] <;> grind)
    as [] (Channel.init n) [] s tr (by simp [Channel.init, rxW]) h
  obtain ⟨k1, k2⟩ := key
  have k1 := k1 w (by simp [hp, rxW])
  have k2 := k2 w (by simp [hp, rxReg]) (by simp [hp, rxW])
  simp only [List.nil_append] at k1
  cases Channel.trans_of_step hs <;> simp_all [Channel.finEv] <;> grind [Channel.finEv]

/-- The receiver is polled with waker 1, then with waker 2, then a value is sent. -/
example : ∃ s s' tr, Channel.exec (T := Nat) 1 (Channel.init 1) [.pollRecv 1, .goR, .goR, .goR, .pollRecv 2, .goR, .goR, .goR,
      .startTry 0 7, .go 0, .go 0, .go 0, .go 0, .go 0] = some (s, tr) ∧
    s.rx = .pend 2 ∧ Channel.step 1 s (.go 0) = some (s', [.wokeR 2, .sendOk 0]) := ⟨_, _, _, rfl, rfl, rfl⟩

/-! ## `Sender::send`: the first waker is kept -/

/-- The polls of the `send` of sender `i`. -/
def sendPoll (i : Nat) : Channel.Act T → Option Nat
  | .poll j w => if j = i then some w else none
  | _ => none

end

/-- The contract for `send`: whoever wakes sender `i` wakes the waker of its most recent poll. -/
def SendLatestWaker : Prop :=
  ∀ (n : Nat) (as : List (Channel.Act Nat)) (s s' : Channel.St Nat) (tr e : List (Channel.Ev Nat)) (a : Channel.Act Nat) (i w w' : Nat),
    Channel.exec n (Channel.init n) as = some (s, tr) → Channel.step n s a = some (s', e) → .wokeS i w' ∈ e →
    lastPoll (sendPoll i) as = some w → w' = w

/-- **C68** Violated by `send`: `channel.rs:421-490` creates the link with the waker of the first poll and never updates it. Sender 0 waits on a
full channel of capacity 1, is polled with waker 1 and then with waker 2; when the receiver frees the slot waker 1 is woken. -/
theorem C68_send_violated : ¬ SendLatestWaker := by
  intro h
  have := h 1 [.startTry 0 7, .go 0, .go 0, .go 0, .go 0, .go 0, .go 0, .startSend 0 8, .poll 0 1, .poll 0 2, .startTryRecv, .goR, .goR]
    _ _ _ _ .goR 0 2 1 rfl rfl (by decide) rfl
  cases this

theorem lk_step {T : Type} {n : Nat} {s s' : Channel.St T} {a : Channel.Act T} {e : List (Channel.Ev T)} (hs : Channel.step n s a = some (s', e)) :
    (∀ i l, s'.lk i = some l → (∃ l', s.lk i = some l' ∧ l'.w = l.w) ∨ a = .poll i l.w) ∧
    (∀ i w, .wokeS i w ∈ e → ∃ l, s.lk i = some l ∧ l.w = w) := by
  have hset : ∀ {β : Type} (f : Nat → β) i x j, Channel.set f i x j = if j = i then x else f j := fun _ _ _ _ => rfl
  cases a with
  | poll j w =>
    simp only [Channel.step] at hs
    split at hs <;> cases hs
    constructor
    · intro i l hl
      simp only [Channel.pollSend] at hl
      repeat' split at hl
      all_goals grind
    · simp
  | goR =>
    constructor <;> cases hr : s.rx <;> simp only [Channel.step, Channel.goR, hr, Channel.register, Channel.returnFreeSlot, Channel.emptyResult] at hs <;>
      (repeat' split at hs) <;> (try cases hs) <;> grind
  | go j =>
    constructor <;> cases hr : s.snd j <;> simp only [Channel.step, Channel.goS, hr, Channel.wakeR, Channel.returnFreeSlot] at hs <;>
      (repeat' split at hs) <;> (try cases hs) <;> grind
  | _ =>
    simp only [Channel.step] at hs
    repeat' split at hs
    all_goals cases hs
    all_goals grind

/-- **C68** (partial) What holds for `send`: sender `i` is only ever woken through a waker it was polled with. So if all polls of `i` used
the same waker `w` (as RTIC's executor does: the waker of a task is a constant), it is the waker of the most recent poll. -/
theorem C68_send_partial {T : Type} {n : Nat} {as : List (Channel.Act T)} {s s' : Channel.St T} {tr e : List (Channel.Ev T)} {a : Channel.Act T}
    {i w : Nat} (h : Channel.exec n (Channel.init n) as = some (s, tr)) (hs : Channel.step n s a = some (s', e)) (hw : .wokeS i w ∈ e) :
    .poll i w ∈ as := by
  have key := history (exec := Channel.exec n) (step := Channel.step n) (fun _ => rfl)
    (by intro s a as r h; simp only [Channel.exec] at h; grind)
    (P := fun as (s : Channel.St T) _ => ∀ i l, s.lk i = some l → .poll i l.w ∈ as)
    (by
      intro as s tr a s' e hP hs i l hl
      rcases (lk_step hs).1 i l hl with ⟨l', h1, h2⟩ | h1
      · have := hP i l' h1; rw [h2] at this; simp [this]
      · simp [h1])
    as [] (Channel.init n) [] s tr (by simp [Channel.init]) h
  obtain ⟨l, h1, h2⟩ := (lk_step hs).2 i w hw
  simpa [h2] using key i l h1

/-! ## `Arbiter::access`: the first waker is kept -/

/-- The polls of client `i`. -/
def accessPoll (i : Nat) : Arbiter.Act → Option Nat
  | .poll j w => if j = i then some w else none
  | _ => none

/-- The contract for `access`. -/
def AccessLatestWaker : Prop :=
  ∀ (as : List Arbiter.Act) (s s' : Arbiter.St) (tr e : List Arbiter.Ev) (a : Arbiter.Act) (i w w' : Nat),
    Arbiter.exec Arbiter.init as = some (s, tr) → Arbiter.step s a = some (s', e) → .handed i w' ∈ e →
    lastPoll (accessPoll i) as = some w → w' = w

/-- **C68** Violated by `access`: `arbiter.rs:106-121`. -/
theorem C68_access_violated : ¬ AccessLatestWaker := by
  intro h
  have := h [.tryAccess 0, .access 1, .poll 1 5, .poll 1 6] _ _ _ _ (.dropTok 0) 1 6 5 rfl rfl (by decide) rfl
  cases this

/-- **C68** (partial) What holds for `access`: a client is only woken through a waker it was polled with. -/
theorem C68_access_partial {as : List Arbiter.Act} {s s' : Arbiter.St} {tr e : List Arbiter.Ev} {a : Arbiter.Act} {i w : Nat}
    (h : Arbiter.exec Arbiter.init as = some (s, tr)) (hs : Arbiter.step s a = some (s', e)) (hw : .handed i w ∈ e) : .poll i w ∈ as := by
  have key := history (exec := Arbiter.exec) (step := Arbiter.step) (fun _ => rfl)
    (by intro s a as r h; simp only [Arbiter.exec] at h; grind)
    (P := fun as (s : Arbiter.St) _ => ∀ i l, s.lk i = some l → .poll i l.w ∈ as)
    (by
      intro as s tr a s' e hP hs
      cases Arbiter.tr_of_step hs <;> grind)
    as [] Arbiter.init [] s tr (by simp [Arbiter.init]) h
  cases Arbiter.tr_of_step hs <;> simp_all

example : ∃ s s' tr, Arbiter.exec Arbiter.init [.tryAccess 0, .access 1, .poll 1 5, .poll 1 5] = some (s, tr) ∧
    Arbiter.step s (.dropTok 0) = some (s', [.released 0, .handed 1 5]) := ⟨_, _, _, rfl, rfl⟩

/-! ## `Delay`: the first waker is kept -/

/-- The polls of delay `i`. -/
def delayPoll (i : Nat) : TimerQueue.Act → Option Nat
  | .poll j w => if j = i then some w else none
  | _ => none

/-- The contract for `Delay`: the entry taken out by the handler (which then wakes the waker in it) has the waker of the most recent poll. -/
def DelayLatestWaker (b : TimerQueue.Cfg) : Prop :=
  ∀ (as : List TimerQueue.Act) (s s' : TimerQueue.St) (tr e : List TimerQueue.Ev) (a : TimerQueue.Act) (x : TimerQueue.E) (n w : Nat),
    TimerQueue.exec b (TimerQueue.init b.noop) as = some (s, tr) → TimerQueue.step b s a = some (s', e) → .popped x n ∈ e →
    lastPoll (delayPoll x.id) as = some w → x.wk = w

/-- **C68** Violated by `Delay`: `timer_queue.rs:220-242`. -/
theorem C68_delay_violated : ¬ DelayLatestWaker { w := 8, noop := false, sl := 0 } := by
  intro h
  have := h [.create 1 1, .poll 1 5, .ins 1, .pend 1, .poll 1 6, .tick false false false, .start, .hgo, .hgo] _ _ _ _ .hgo { id := 1, wk := 5, time := 1 } 1 6 rfl rfl (by decide) rfl
  cases this

/-- **C68** (partial) What holds for `Delay`: it is only woken through a waker it was polled with. -/
theorem C68_delay_partial {b : TimerQueue.Cfg} {as : List TimerQueue.Act} {s : TimerQueue.St} {tr : List TimerQueue.Ev} {x : TimerQueue.E} {n : Nat}
    (h : TimerQueue.exec b (TimerQueue.init b.noop) as = some (s, tr)) (hp : .popped x n ∈ tr) : .poll x.id x.wk ∈ as :=
  (TimerQueue.C27_waker_of_poll h).2 x n hp

end Verif.Wakers
