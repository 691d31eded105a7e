import Verif.Channel.Props

/-! # C05–C08 -/

namespace Verif.Channel

variable {T : Type}

/-! ## C05 -/

theorem num_zero_iff {n : Nat} {s : St T} (hI : Inv n s) : s.num = 0 ↔ ∀ i, ¬ Alive s i := by
  obtain ⟨live, hl⟩ := hI.nn
  have hc : ∀ i, i ∈ live ↔ Alive s i := by
    intro i; rw [hl.mem]; unfold Alive
    cases s.snd i <;> simp [Pc.counted]
  rw [← hl.len, List.length_eq_zero_iff]
  constructor
  · rintro rfl i hi; exact absurd ((hc i).2 hi) (by simp)
  · intro h
    cases live with
    | nil => rfl
    | cons a l => exact absurd ((hc a).1 List.mem_cons_self) (h a)

/-- **C05** If the receiver's `recv()` future waits with waker `w` (it returned `Pending` and has not been polled since), and a
value could be received or all senders are gone, then `w` has been woken since it was registered, or some sender is in the
middle of an operation whose very next step wakes `w`. -/
theorem C05_no_lost_wakeup {n : Nat} {s : St T} {tr : List (Ev T)} {w : Nat} (h : Reach n s tr) (hp : s.rx = .pend w)
    (hwork : queued s ≠ [] ∨ ∀ i, ¬ Alive s i) :
    regState none tr = some (w, true) ∨
    ∃ i s' e, step n s (.go i) = some (s', e) ∧ Ev.wokeR w ∈ e := by
  have hI := reach_inv h
  obtain ⟨b, hb, hc⟩ := reach_invW h w (by rw [hp]; rfl)
  cases b with
  | true => exact .inl hb
  | false =>
    obtain ⟨c1, c2, c3⟩ := hc rfl
    have hgo : (∃ i, s.snd i = .pushed) ∨ ∃ i, s.snd i = .dropW := by
      rcases hwork with hq | hd
      · rcases c2 (by rw [hp]; rfl) with hr | hr
        · exact absurd (by simp [queued, hr]) hq
        · exact .inl hr
      · rcases c3 (by rw [hp]; rfl) with hr | hr
        · exact absurd ((num_zero_iff hI).2 hd) hr
        · exact .inr hr
    right
    rcases hgo with ⟨i, hi⟩ | ⟨i, hi⟩
    · exact ⟨i, _, _, by simp only [step, goS, hi, wakeR, c1]; rfl, by simp⟩
    · exact ⟨i, _, _, by simp only [step, goS, hi, wakeR, c1]; rfl, by simp⟩

/-- Non-vacuity: the receiver waits with waker 9, then a value arrives; and the moment just before the wake-up. -/
example : (exec 1 (init 1) [.pollRecv 9, .goR, .goR, .goR, .startTry 0 'x', .go 0, .go 0, .go 0, .go 0, .go 0]).map
    (fun r => (r.1.rx, queued r.1, regState none r.2, r.1.snd 0))
    = some (.pend 9, ['x'], some (9, false), .pushed) := by decide
example : (exec 1 (init 1) [.pollRecv 9, .goR, .goR, .goR, .startTry 0 'x', .go 0, .go 0, .go 0, .go 0, .go 0, .go 0]).map
    (fun r => (r.1.rx, queued r.1, regState none r.2))
    = some (.pend 9, ['x'], some (9, true)) := by decide

/-! ## C06 -/

/-- **C06** Senders wait only while no slot is free. -/
theorem C06_waiting_implies_full {n : Nat} {s : St T} {tr : List (Ev T)} (h : Reach n s tr) (hw : s.wq ≠ []) :
    s.free = [] := (reach_inv h).q.free hw

/-- **C06** First come, first served: the wait queue changes only by appending a new waiter at the end, by taking the oldest
one, or by removing one that gave up; so waiters never overtake each other. -/
theorem C06_queue_order {n : Nat} {s s' : St T} {e : List (Ev T)} {a : Act T}
    (hs : step n s a = some (s', e)) :
    s'.wq = s.wq ∨ (∃ i, s'.wq = s.wq ++ [i] ∧ s'.free = s.free) ∨ s'.wq = s.wq.tail ∨ ∃ i, s'.wq = s.wq.erase i := by
  cases trans_of_step hs with
  | pollWait i v w hi hc hl hf => exact .inr (.inl ⟨i, rfl, rfl⟩)
  | drop0 i v k hi => exact .inr (.inr (.inr ⟨i, rfl⟩))
  | drop1Grant i v k x j q l hi hx hq hl => exact .inr (.inr (.inl (by simp [hq])))
  | rdGrant m x v j q l hr hq hl => exact .inr (.inr (.inl (by simp [hq])))
  | drop2Pop j q l hr hq hl => exact .inr (.inr (.inl (by simp [hq])))
  | _ => exact .inl rfl

/-- **C06** A slot is handed only to the sender that has waited longest, and that sender is woken in the same moment, with the
waker it started to wait with. -/
theorem C06_handover_fifo_and_wakes {n : Nat} {s s' : St T} {tr e : List (Ev T)} {a : Act T} {j x : Nat} (_h : Reach n s tr)
    (hs : step n s a = some (s', e)) (h0 : s.sl j = none) (h1 : s'.sl j = some x) :
    s.wq.head? = some j ∧ ∃ l, s.lk j = some l ∧ Ev.wokeS j l.w ∈ e := by
  cases trans_of_step hs with
  | startSend i v hi => by_cases hj : j = i <;> simp_all [set_apply]
  | pollOk i v l x hi hc hl hp hx => by_cases hj : j = i <;> simp_all [set_apply]
  | drop1None i v k hi hx => by_cases hj : j = i <;> simp_all [set_apply]
  | drop1Free i v k x hi hx hq => by_cases hj : j = i <;> simp_all [set_apply]
  | drop1Bad i v k x j' q hi hx hq hl => by_cases hj : j = i <;> simp_all [set_apply]
  | drop1Grant i v k x j' q l hi hx hq hl =>
    by_cases hj : j = j'
    · subst hj; exact ⟨by simp [hq], l, hl, by simp⟩
    · by_cases hj' : j = i <;> simp_all [set_apply]
  | rdGrant m x v j' q l hr hq hl =>
    by_cases hj : j = j'
    · subst hj; exact ⟨by simp [hq], l, hl, by simp⟩
    · simp_all [set_apply]
  | _ => rw [show _ = s.sl j from rfl, h0] at h1; cases h1

/-- **C06** Every waiter that leaves the queue has been woken in the same moment, unless it left by itself. -/
theorem C06_leaving_is_woken {n : Nat} {s s' : St T} {tr e : List (Ev T)} {a : Act T} {j : Nat} (h : Reach n s tr)
    (hs : step n s a = some (s', e)) (h0 : j ∈ s.wq) (h1 : j ∉ s'.wq) :
    (∃ l, s.lk j = some l ∧ Ev.wokeS j l.w ∈ e) ∨ (∃ v k, s.snd j = .drop0 v k ∧ s'.snd j = .drop1 v k) := by
  have hq := (reach_inv h).q
  cases trans_of_step hs with
  | pollWait i v w hi hc hl hf => exact absurd (List.mem_append_left _ h0) h1
  | drop0 i v k hi =>
    by_cases hj : j = i
    · subst hj; exact .inr ⟨v, k, hi, by simp⟩
    · exact absurd ((erase_mem_iff hq.nodup _ _).2 ⟨hj, h0⟩) h1
  | drop1Grant i v k x j' q l hi hx hq' hl =>
    rw [hq'] at h0
    rcases List.mem_cons.1 h0 with rfl | h0
    · exact .inl ⟨l, hl, by simp⟩
    · exact absurd h0 h1
  | rdGrant m x v j' q l hr hq' hl =>
    rw [hq'] at h0
    rcases List.mem_cons.1 h0 with rfl | h0
    · exact .inl ⟨l, hl, by simp⟩
    · exact absurd h0 h1
  | drop2Pop j' q l hr hq' hl =>
    rw [hq'] at h0
    rcases List.mem_cons.1 h0 with rfl | h0
    · exact .inl ⟨l, hl, by simp⟩
    · exact absurd h0 h1
  | _ => exact absurd h0 h1

/-- **C06** No overtaking: whoever takes a slot out of the free pool does so at a moment when nobody waits. -/
theorem C06_no_overtaking {n : Nat} {s s' : St T} {tr e : List (Ev T)} {a : Act T} {x : Nat} (h : Reach n s tr)
    (hs : step n s a = some (s', e)) (h0 : x ∈ s.free) (h1 : x ∉ s'.free) : s.wq = [] := by
  have hq := (reach_inv h).q
  apply Classical.byContradiction
  intro hne
  have := hq.free hne
  rw [this] at h0; cases h0

/-- **C06** A sender that has been handed a slot obtains it (and so completes its send) when it is polled, if the receiver is
still there. -/
theorem C06_granted_sender_proceeds {n : Nat} {s : St T} {tr : List (Ev T)} {i x : Nat} {v : T} (w : Nat) (h : Reach n s tr)
    (hi : s.snd i = .snd v) (hx : s.sl i = some x) (halive : s.rcvDropped = false) :
    ∃ s' s'' s''' e, step n s (.poll i w) = some (s', []) ∧ step n s' (.go i) = some (s'', []) ∧
      step n s'' (.go i) = some (s''', e) ∧ s'''.snd i = .hold v x := by
  have hq := (reach_inv h).q
  rcases hq.slpc i x hx with ⟨l, hl, hp⟩ | hd
  · refine ⟨_, _, _, _, by simp only [step, hi, pollSend, halive, hl, hp, hx, if_true]; rfl, by simp [step, goS]; rfl, by simp [step, goS]; exact ⟨rfl, rfl⟩, by simp⟩
  · rw [hi] at hd; cases hd

/-- Non-vacuity: capacity 1, sender 0 fills it, senders 1 and 2 wait (wakers 5 and 6), a receive hands the slot to 1. -/
def waitActs : List (Act Char) :=
  [.clone 0 1, .clone 0 2, .startTry 0 'x', .go 0, .go 0, .go 0, .go 0, .go 0, .go 0,
   .startSend 1 'y', .poll 1 5, .startSend 2 'z', .poll 2 6]

example : (exec 1 (init 1) waitActs).map (fun r => (r.1.wq, r.1.free, r.1.sl 1)) = some ([1, 2], [], none) := by decide
example : (exec 1 (init 1) (waitActs ++ [.startTryRecv, .goR, .goR, .goR])).map (fun r => (r.1.wq, r.1.free, r.1.sl 1, r.2.getLast?))
    = some ([2], [], some 0, some (.recvd 'x')) := by decide

/-! ## C07 -/

/-- **C07** A cancelled send has put nothing into the channel, and once the cancellation is finished the sender is in no queue,
holds no slot and is usable again. -/
theorem C07_cancel_clean {n : Nat} {s s' : St T} {tr e : List (Ev T)} {a : Act T} {i : Nat} {v : T} (h : Reach n s tr)
    (hs : step n s a = some (s', e)) (hc : Ev.cancelled i v ∈ e) :
    opState i none (tr ++ e) = some (v, []) ∧ i ∉ s'.wq ∧ s'.sl i = none ∧ s'.lk i = none ∧ s'.snd i = .idle := by
  refine ⟨C01_error_means_not_sent h hs (.inr (.inr (.inr hc))), ?_⟩
  have hI' := inv_tr (reach_inv h) (trans_of_step hs)
  have hidle : s'.snd i = .idle := by
    cases trans_of_step hs with
    | drop1None j w k hj hx => cases k <;> simp [finEv] at hc; obtain ⟨rfl, rfl⟩ := hc; simp [finPc]
    | drop1Free j w k x hj hx hq => cases k <;> simp [finEv] at hc; obtain ⟨rfl, rfl⟩ := hc; simp [finPc]
    | drop1Bad j w k x j' q hj hx hq hl => cases k <;> simp [finEv] at hc; obtain ⟨rfl, rfl⟩ := hc; simp [finPc]
    | drop1Grant j w k x j' q l hj hx hq hl => cases k <;> simp [finEv] at hc; obtain ⟨rfl, rfl⟩ := hc; simp [finPc]
    | _ => simp at hc
  have hlk : s'.lk i = none := by
    cases hl : s'.lk i with
    | none => rfl
    | some l => have := hI'.q.lkpc i l hl; rw [hidle] at this; cases this
  refine ⟨?_, idle_sl hI'.q hidle, hlk, hidle⟩
  rw [hI'.q.mem]; rintro ⟨l, hl, -⟩; rw [hlk] at hl; cases hl

/-- **C07** Cancelling can be done in any state of the future and always finishes with two further steps of its own,
whatever the others do in between (only the uninterrupted run is shown here; the steps are always enabled). -/
theorem C07_cancel_terminates {n : Nat} {s : St T} {i : Nat} {v : T} (hi : s.snd i = .snd v) :
    ∃ s1 s2 s3 e, step n s (.cancel i) = some (s1, []) ∧ step n s1 (.go i) = some (s2, []) ∧
      step n s2 (.go i) = some (s3, e) ∧ Ev.cancelled i v ∈ e := by
  refine ⟨_, _, _, _, by simp only [step, hi]; rfl, by simp [step, goS]; rfl, by simp [step, goS]; exact ⟨rfl, rfl⟩, by simp⟩

/-- **C07** In every state, the two clean-up steps of a `send` future are enabled. -/
theorem C07_cleanup_enabled {n : Nat} {s : St T} {i : Nat} {v : T} {k : Fin}
    (hi : s.snd i = .drop0 v k ∨ s.snd i = .drop1 v k) : ∃ s' e, step n s (.go i) = some (s', e) := by
  rcases hi with hi | hi
  · exact ⟨_, _, by simp only [step, goS, hi]; rfl⟩
  · cases k <;> exact ⟨_, _, by simp only [step, goS, hi]; rfl⟩

/-- **C07** Leaving the queue removes exactly this sender from it. -/
theorem C07_unlink_exact {n : Nat} {s s' : St T} {e : List (Ev T)} {i : Nat} {v : T} {k : Fin}
    (hi : s.snd i = .drop0 v k) (hs : step n s (.go i) = some (s', e)) :
    s'.wq = s.wq.erase i ∧ s'.free = s.free ∧ s'.ready = s.ready ∧ s'.sl = s.sl := by
  simp only [step, goS, hi] at hs; cases hs; simp

/-- **C07** A slot that had been promised to the cancelled (or failed) send goes to the longest waiting sender, which is woken,
or, if nobody waits, back to the free pool. -/
theorem C07_slot_passed_on {n : Nat} {s s' : St T} {tr e : List (Ev T)} {i x : Nat} {v : T} {k : Fin} (h : Reach n s tr)
    (hi : s.snd i = .drop1 v k) (hx : s.sl i = some x) (hs : step n s (.go i) = some (s', e)) :
    match s.wq with
    | [] => x ∈ s'.free
    | j :: _ => s'.sl j = some x ∧ ∃ l, s.lk j = some l ∧ Ev.wokeS j l.w ∈ e := by
  have hq := (reach_inv h).q
  cases hw : s.wq with
  | nil =>
    simp only [step, goS, hi, hx, returnFreeSlot, hw] at hs
    cases k <;> cases hs <;> simp
  | cons j q =>
    obtain ⟨l, hl, -⟩ := (hq.mem j).1 (by rw [hw]; exact List.mem_cons_self)
    simp only [step, goS, hi, hx, returnFreeSlot, hw, hl] at hs
    cases k <;> cases hs <;> exact ⟨by simp, l, hl, by simp⟩

/-- Non-vacuity: sender 1 was promised the slot and is cancelled; the slot goes to sender 2. -/
example : (exec 1 (init 1) (waitActs ++ [.startTryRecv, .goR, .goR, .goR, .cancel 1, .go 1, .go 1])).map
    (fun r => (r.1.wq ++ r.1.free, r.1.sl 1, r.1.sl 2, r.2.reverse.take 2))
    = some ([], none, some 0, [.cancelled 1 'y', .wokeS 2 6]) := by decide

/-! ## C08 -/

/-- senders that can no longer put a value into a closed channel -/
def Pc.closedOk : Pc T → Bool
  | .absent | .idle | .try0 _ | .try1 _ | .snd _ | .drop0 _ .err | .drop0 _ .cancelled | .drop1 _ .err
  | .drop1 _ .cancelled | .dropW => true
  | _ => false

theorem closed_tr {n : Nat} {s s' : St T} {e : List (Ev T)} {i : Nat} (hd : s.rcvDropped = true)
    (hp : (s.snd i).closedOk = true) (hs : Tr n s s' e) :
    s'.rcvDropped = true ∧ (s'.snd i).closedOk = true ∧ (∀ v, Ev.enq i v ∉ e) ∧ Ev.sendOk i ∉ e := by
  have key : ∀ (j : Nat) (p : Pc T), ((s.snd j).closedOk = true → p.closedOk = true) →
      ((set s.snd j p) i).closedOk = true := by
    intro j p h
    by_cases hj : i = j
    · subst hj; simpa using h hp
    · rw [set_ne _ _ hj]; exact hp
  cases hs with
  | dropS j hj =>
    refine ⟨hd, key _ _ ?_, by simp, by simp⟩
    intro _; split <;> rfl
  | drop1None j v k hj hx =>
    refine ⟨hd, key _ _ ?_, ?_, ?_⟩ <;> cases k <;> simp [finPc, finEv, Pc.closedOk, hj]
  | drop1Free j v k x hj hx hq =>
    refine ⟨hd, key _ _ ?_, ?_, ?_⟩ <;> cases k <;> simp [finPc, finEv, Pc.closedOk, hj]
  | drop1Bad j v k x j' q hj hx hq hl =>
    refine ⟨hd, key _ _ ?_, ?_, ?_⟩ <;> cases k <;> simp [finPc, finEv, Pc.closedOk, hj]
  | drop1Grant j v k x j' q l hj hx hq hl =>
    refine ⟨hd, key _ _ ?_, ?_, ?_⟩ <;> cases k <;> simp [finPc, finEv, Pc.closedOk, hj]
  | drop0 j v k hj =>
    refine ⟨hd, key _ _ ?_, by simp, by simp⟩
    rw [hj]; cases k <;> simp [Pc.closedOk]
  | written j v x hj =>
    have hne : i ≠ j := by rintro rfl; rw [hj] at hp; cases hp
    refine ⟨hd, by simp only [set_ne _ _ hne]; exact hp, by simp; exact fun h => absurd h hne, by simp⟩
  | pushedN j hj hw =>
    have hne : i ≠ j := by rintro rfl; rw [hj] at hp; cases hp
    refine ⟨hd, by simp only [set_ne _ _ hne]; exact hp, by simp, by simp; exact hne⟩
  | pushedS j w hj hw =>
    have hne : i ≠ j := by rintro rfl; rw [hj] at hp; cases hp
    refine ⟨hd, by simp only [set_ne _ _ hne]; exact hp, by simp, by simp; exact hne⟩
  | hold j v x hj => exact ⟨hd, key _ _ (by rw [hj]; simp [Pc.closedOk]), by simp, by simp⟩
  | try2Take j v x f hj hf => exact ⟨hd, key _ _ (by rw [hj]; simp [Pc.closedOk]), by simp, by simp⟩
  | pollTake j v x f hj hc hl hq hf => rw [hd] at hc; cases hc
  | pollOk j v l x hj hc hl hpp hx => rw [hd] at hc; cases hc
  | pollErr j v l hj hc hl hpp hx => rw [hd] at hc; cases hc
  | try1Go j v hj hc => rw [hd] at hc; cases hc
  | rdrop0 hr => exact ⟨rfl, hp, by simp, by simp⟩
  | _ =>
    first
      | exact ⟨hd, hp, by simp, by simp⟩
      | (refine ⟨hd, key _ _ ?_, by simp, by simp⟩; simp [Pc.closedOk])

/-- **C08** Once the receiver has been dropped, no `try_send` or `send` that starts afterwards, and no `send` future that is
polled (again) afterwards, ever puts a value into the channel or reports success — in every continuation. -/
theorem C08_closed_forever {n : Nat} {s s' : St T} {as : List (Act T)} {e : List (Ev T)} {i : Nat}
    (hd : s.rcvDropped = true) (hi : s.snd i = .idle ∨ s.snd i = .absent ∨ ∃ v, s.snd i = .snd v)
    (he : exec n s as = some (s', e)) : (∀ v, Ev.enq i v ∉ e) ∧ Ev.sendOk i ∉ e := by
  have hp : (s.snd i).closedOk = true := by rcases hi with h | h | ⟨v, h⟩ <;> rw [h] <;> rfl
  have := exec_induct (n := n) (P := fun s tr => s.rcvDropped = true ∧ (s.snd i).closedOk = true ∧
    (∀ v, Ev.enq i v ∉ tr) ∧ Ev.sendOk i ∉ tr)
    (fun s tr s' e h ht => by
      obtain ⟨a, b, c, d⟩ := closed_tr h.1 h.2.1 ht
      refine ⟨a, b, ?_, ?_⟩
      · intro v hm; rcases List.mem_append.1 hm with hm | hm
        · exact h.2.2.1 v hm
        · exact c v hm
      · intro hm; rcases List.mem_append.1 hm with hm | hm
        · exact h.2.2.2 hm
        · exact d hm) as s [] s' e ⟨hd, hp, by simp, by simp⟩ he
  simpa using this.2.2

/-- **C08** A `send` future that is polled after the receiver was dropped completes with `Err(NoReceiver(v))` carrying its
value, whether or not it was waiting or had been promised a slot. -/
theorem C08_send_returns_value {n : Nat} {s : St T} {i : Nat} {v : T} (w : Nat) (hd : s.rcvDropped = true)
    (hi : s.snd i = .snd v) :
    ∃ s1 s2 s3 e, step n s (.poll i w) = some (s1, []) ∧ step n s1 (.go i) = some (s2, []) ∧
      step n s2 (.go i) = some (s3, e) ∧ Ev.sendErr i v ∈ e := by
  refine ⟨_, _, _, _, by simp only [step, hi, pollSend, hd, if_true]; rfl, by simp [step, goS]; rfl, by simp [step, goS]; exact ⟨rfl, rfl⟩, by simp⟩

/-- **C08** A `try_send` after the receiver was dropped completes with an error carrying its value. -/
theorem C08_try_send_returns_value {n : Nat} {s : St T} {i : Nat} (v : T) (hd : s.rcvDropped = true)
    (hi : s.snd i = .idle) :
    ∃ as s' e, (∀ a ∈ as, a = .go i) ∧ exec n s (.startTry i v :: as) = some (s', e) ∧
      (Ev.tryClosed i v ∈ e ∨ (s.wq ≠ [] ∧ Ev.tryFull i v ∈ e)) := by
  by_cases hq : s.wq = []
  · exact ⟨[.go i, .go i], _, _, by simp, (by simp [exec, step, hi, goS, hq, hd]; exact ⟨rfl, rfl⟩), .inl (by simp)⟩
  · exact ⟨[.go i], _, _, by simp, (by simp [exec, step, hi, goS, hq]; exact ⟨rfl, rfl⟩), .inr ⟨hq, by simp⟩⟩

/-- **C08** When the drop of the receiver has finished, nobody waits any more (by `C06_leaving_is_woken` every sender that was
waiting has been woken), and nobody ever waits again. -/
theorem C08_no_waiters_left {n : Nat} {s : St T} {tr : List (Ev T)} (h : Reach n s tr) (hg : s.rx = .gone) :
    s.wq = [] ∧ s.rcvDropped = true := by
  have hI := reach_inv h
  exact ⟨hI.d.gone hg, by rw [hI.d.iff, hg]; rfl⟩

/-- Non-vacuity: the receiver is dropped while two senders wait; both are woken and get their values back. -/
example : (exec 1 (init 1) (waitActs ++ [.dropR, .goR, .goR, .goR, .goR, .goR, .goR, .goR, .poll 1 5, .go 1, .go 1, .poll 2 6, .go 2, .go 2])).map
    (fun r => (r.1.rx, r.1.wq, r.2.reverse.take 5))
    = some (.gone, [], [.sendErr 2 'z', .sendErr 1 'y', .wokeS 2 6, .wokeS 1 5, .discarded 'x']) := by decide

end Verif.Channel
