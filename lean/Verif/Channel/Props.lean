import Verif.Channel.Hist

/-!
# C01–C11: properties of the channel

All theorems quantify over the capacity `n`, every value type, any number of senders and **every** interleaving
(`Reach n s tr`: `s` is reachable with event history `tr`; `step n s a = some (s', e)`: action `a` takes `s` to `s'` with
events `e`).
-/

namespace Verif.Channel

variable {T : Type}

/-! ## C01 -/

/-- **C01** While the receiver is alive, at every moment of every execution: the values handed out, then the value of a
receive in progress, then the queued values, are exactly the values whose send took effect, in that order. -/
theorem C01_fifo {n : Nat} {s : St T} {tr : List (Ev T)} (h : Reach n s tr) (halive : s.rcvDropped = false) :
    recvVals tr ++ inReceive s ++ queued s = sentVals tr :=
  ((reach_ordered h).1 halive).symm

/-- **C01** Also including the dropping of the receiver: no value is duplicated, invented or lost; every value whose send took
effect has been handed out, or dropped together with the receiver, or is still inside the channel. -/
theorem C01_conservation {n : Nat} {s : St T} {tr : List (Ev T)} (h : Reach n s tr) :
    (sentVals tr).Perm (recvVals tr ++ discardedVals tr ++ inReceive s ++ queued s) :=
  (reach_ordered h).2

/-- **C01** (which sends take effect) When `send`/`try_send` reports success, its argument has been put into the channel
exactly once during this call and nothing else has. -/
theorem C01_ok_means_sent_once {n : Nat} {s s' : St T} {tr e : List (Ev T)} {a : Act T} (h : Reach n s tr)
    (hs : step n s a = some (s', e)) {i : Nat} (hok : Ev.sendOk i ∈ e) :
    ∃ v, opState i none (tr ++ e) = some (v, [v]) := by
  have hp := reach_invP i h
  cases trans_of_step hs with
  | pushedN j hj hw =>
    simp at hok; subst hok
    obtain ⟨v, hv⟩ := hp.2 hj
    exact ⟨v, by rw [opState_append, hv]; rfl⟩
  | pushedS j w hj hw =>
    simp at hok; subst hok
    obtain ⟨v, hv⟩ := hp.2 hj
    exact ⟨v, by rw [opState_append, hv]; rfl⟩
  | drop1None j v k hj hx => cases k <;> simp [finEv] at hok
  | drop1Free j v k x hj hx hq => cases k <;> simp [finEv] at hok
  | drop1Bad j v k x j' q hj hx hq hl => cases k <;> simp [finEv] at hok
  | drop1Grant j v k x j' q l hj hx hq hl => cases k <;> simp [finEv] at hok
  | _ => simp at hok

/-- **C01** When `send`/`try_send` reports an error or is cancelled, the value returned is the argument of the call and
nothing was put into the channel during this call. -/
theorem C01_error_means_not_sent {n : Nat} {s s' : St T} {tr e : List (Ev T)} {a : Act T} (h : Reach n s tr)
    (hs : step n s a = some (s', e)) {i : Nat} {v : T}
    (herr : Ev.sendErr i v ∈ e ∨ Ev.tryFull i v ∈ e ∨ Ev.tryClosed i v ∈ e ∨ Ev.cancelled i v ∈ e) :
    opState i none (tr ++ e) = some (v, []) := by
  have hp := reach_invP i h
  have key : ∀ (e : List (Ev T)), (s.snd i).val = some v → (∀ r, opState i r e = r) →
      opState i none (tr ++ e) = some (v, []) := fun e hv he => by
    rw [opState_append, he]; exact hp.1 v hv
  cases trans_of_step hs with
  | try0Full j w hj hq =>
    simp at herr; obtain ⟨rfl, rfl⟩ := herr; exact key _ (by rw [hj]; rfl) (fun r => by cases r <;> rfl)
  | try2Full j w hj hq =>
    simp at herr; obtain ⟨rfl, rfl⟩ := herr; exact key _ (by rw [hj]; rfl) (fun r => by cases r <;> rfl)
  | try1Closed j w hj hc =>
    simp at herr; obtain ⟨rfl, rfl⟩ := herr; exact key _ (by rw [hj]; rfl) (fun r => by cases r <;> rfl)
  | drop1None j w k hj hx =>
    refine key _ ?_ (opState_finEv _ _ _ _)
    cases k <;> simp [finEv] at herr <;> obtain ⟨rfl, rfl⟩ := herr <;> rw [hj] <;> rfl
  | drop1Free j w k x hj hx hq =>
    refine key _ ?_ (opState_finEv _ _ _ _)
    cases k <;> simp [finEv] at herr <;> obtain ⟨rfl, rfl⟩ := herr <;> rw [hj] <;> rfl
  | drop1Bad j w k x j' q hj hx hq hl =>
    refine key _ ?_ (opState_finEv _ _ _ _)
    cases k <;> simp [finEv] at herr <;> obtain ⟨rfl, rfl⟩ := herr <;> rw [hj] <;> rfl
  | drop1Grant j w k x j' q l hj hx hq hl =>
    refine key _ ?_ (opState_finEv' _ _ _ _ _ _)
    cases k <;> simp [finEv] at herr <;> obtain ⟨rfl, rfl⟩ := herr <;> rw [hj] <;> rfl
  | _ => simp at herr

/-- Two values go through a channel of capacity 2, the first one is received while the second one is queued. -/
def demoActs : List (Act String) :=
  [.clone 0 1, .startTry 0 "a", .go 0, .go 0, .startSend 1 "b", .poll 1 7, .go 0, .go 1, .go 1, .go 1, .go 0, .go 0, .go 0,
   .go 1, .go 1, .startTryRecv, .goR, .goR, .goR]

example : (exec 2 (init 2) demoActs).map (fun r => (r.2, queued r.1, r.1.rcvDropped))
    = some ([.start 0 "a", .start 1 "b", .enq 0 "a", .sendOk 0, .enq 1 "b", .sendOk 1, .recvd "a"], ["b"], false) := by
  decide

/-! ## C02 -/

theorem at_sender {s : St T} {x i : Nat} : At s x (.sender i) ↔ (s.snd i).held = some x := by
  unfold At Pc.held
  constructor
  · rintro ⟨v, h | h | h | h⟩ <;> rw [h]
  · intro h
    split at h
    · cases h; exact ⟨_, .inl ‹_›⟩
    · cases h; exact ⟨_, .inr (.inl ‹_›)⟩
    · cases h; exact ⟨_, .inr (.inr (.inl ‹_›))⟩
    · cases h; exact ⟨_, .inr (.inr (.inr ‹_›))⟩
    · cases h

theorem at_receive {s : St T} {x : Nat} : At s x .receive ↔ s.rx.held = some x := by
  unfold At Rx.held
  constructor
  · rintro (⟨m, h⟩ | ⟨m, v, h⟩ | h) <;> rw [h]
  · intro h
    split at h
    · cases h; exact .inl ⟨_, ‹_›⟩
    · cases h; exact .inr (.inl ⟨_, _, ‹_›⟩)
    · cases h; exact .inr (.inr ‹_›)
    · cases h

def placeOwner : Place → Owner
  | .freePool => .free
  | .queue => .ready
  | .sender i => .snd i
  | .promised i => .sl i
  | .receive => .rx

theorem at_iff {n : Nat} {s : St T} {own} (ho : InvO n s own) (x : Nat) (p : Place) :
    At s x p ↔ x < n ∧ own x = placeOwner p := by
  cases p with
  | freePool => exact ho.free x
  | queue => exact ho.ready x
  | sender i => rw [at_sender]; exact ho.snd i x
  | promised i => exact ho.sl i x
  | receive => rw [at_receive]; exact ho.rx x

theorem placeOwner_inj {p q : Place} (h : placeOwner p = placeOwner q) : p = q := by
  cases p <;> cases q <;> simp_all [placeOwner]

/-- **C02** A slot is never at two places at once; only indices below the capacity occur, and each at most once in the
queues. -/
theorem C02_slot_exclusive {n : Nat} {s : St T} {tr : List (Ev T)} (h : Reach n s tr) (x : Nat) :
    (∀ p q, At s x p → At s x q → p = q) ∧ (∀ p, At s x p → x < n) ∧ s.free.Nodup ∧ s.ready.Nodup := by
  obtain ⟨own, ho⟩ := (reach_inv h).o
  refine ⟨?_, ?_, ho.freeNd, ho.readyNd⟩
  · intro p q hp hq
    rw [at_iff ho] at hp hq
    exact placeOwner_inj (hp.2.symm.trans hq.2)
  · intro p hp; exact ((at_iff ho x p).1 hp).1

/-- **C02** While the receiver is alive every slot is at exactly one place. -/
theorem C02_slot_has_owner {n : Nat} {s : St T} {tr : List (Ev T)} (h : Reach n s tr) (halive : s.rcvDropped = false)
    (x : Nat) (hx : x < n) : ∃ p, At s x p ∧ ∀ q, At s x q → q = p := by
  obtain ⟨own, ho⟩ := (reach_inv h).o
  have hex := C02_slot_exclusive h x
  suffices ∃ p, At s x p by
    obtain ⟨p, hp⟩ := this
    exact ⟨p, hp, fun q hq => hex.1 q p hq hp⟩
  cases hown : own x with
  | free => exact ⟨.freePool, (at_iff ho x .freePool).2 ⟨hx, hown⟩⟩
  | ready => exact ⟨.queue, (at_iff ho x .queue).2 ⟨hx, hown⟩⟩
  | snd i => exact ⟨.sender i, (at_iff ho x (.sender i)).2 ⟨hx, hown⟩⟩
  | sl i => exact ⟨.promised i, (at_iff ho x (.promised i)).2 ⟨hx, hown⟩⟩
  | rx => exact ⟨.receive, (at_iff ho x .receive).2 ⟨hx, hown⟩⟩
  | lost => have := ho.lost x hx hown; rw [halive] at this; cases this

/-- **C02** No execution reads a slot that holds no value, overwrites an unread value, overflows or underflows an internal
queue, or underflows the sender count. -/
theorem C02_no_undefined_behaviour {n : Nat} {s : St T} {tr : List (Ev T)} (h : Reach n s tr) : s.bad = false :=
  (reach_inv h).s.nobad

/-- **C02** The same, said about the operations: a sender that is about to write owns an empty slot; a receive that is about
to read owns a slot with a complete value; a returned or enqueued index always fits into its queue. -/
theorem C02_accesses_safe {n : Nat} {s : St T} {tr : List (Ev T)} (h : Reach n s tr) :
    (∀ i v x, s.snd i = .hold v x → s.slots x = none) ∧
    (∀ m x, s.rx = .got m x → ∃ v, s.slots x = some v) ∧
    (∀ x, s.rx = .dgot x → ∃ v, s.slots x = some v) ∧
    (∀ i v x, s.snd i = .written v x → s.slots x = some v ∧ s.ready.length < n) ∧
    (∀ x p, At s x p → p ≠ .freePool → s.free.length < n) := by
  have hI := reach_inv h
  obtain ⟨own, ho⟩ := hI.o
  have hS := hI.s
  have hfree : ∀ x ∈ s.free, x < n := fun x hx => ((ho.free x).1 hx).1
  have hready : ∀ x ∈ s.ready, x < n := fun x hx => ((ho.ready x).1 hx).1
  refine ⟨?_, ?_, ?_, ?_, ?_⟩
  · intro i v x hi
    cases hv : s.slots x with
    | none => rfl
    | some v' =>
      have hx := (ho.snd i x).1 (by rw [hi]; rfl)
      rcases hS.cnone x v' hv with h | ⟨j, w, h⟩ | h
      · have := (ho.ready x).1 h; rw [hx.2] at this; cases this.2
      · have h' := (ho.snd j x).1 (by rw [h]; rfl); rw [hx.2] at h'; cases h'.2; rw [hi] at h; cases h
      · have h' := (ho.rx x).1 (by cases hr : s.rx <;> rw [hr] at h <;> simp_all [Rx.unread, Rx.held])
        rw [hx.2] at h'; cases h'.2
  · intro m x hr; exact hS.cgot x (by rw [hr]; rfl)
  · intro x hr; exact hS.cgot x (by rw [hr]; rfl)
  · intro i v x hi
    refine ⟨hS.cwritten i v x hi, ?_⟩
    have hx := (ho.snd i x).1 (by rw [hi]; rfl)
    refine length_lt_of_fresh ho.readyNd hready hx.1 ?_
    intro hc; have := (ho.ready x).1 hc; rw [hx.2] at this; cases this.2
  · intro x p hp hpf
    have hx := (at_iff ho x p).1 hp
    refine length_lt_of_fresh ho.freeNd hfree hx.1 ?_
    intro hc
    have := (at_iff ho x .freePool).1 hc
    exact hpf (placeOwner_inj (hx.2.symm.trans this.2))

/-! ## C03 -/

/-- **C03** A channel of capacity `n` never holds more than `n` accepted but not yet received values. -/
theorem C03_capacity {n : Nat} {s : St T} {tr : List (Ev T)} (h : Reach n s tr) (halive : s.rcvDropped = false) :
    (sentVals tr).length ≤ (recvVals tr).length + n := by
  have hf := C01_fifo h halive
  obtain ⟨own, ho⟩ := (reach_inv h).o
  have hready : ∀ x ∈ s.ready, x < n := fun x hx => ((ho.ready x).1 hx).1
  rw [← hf, List.length_append, List.length_append]
  have hq : (queued s).length ≤ s.ready.length := List.length_filterMap_le _ _
  cases hr : s.rx.held with
  | none =>
    rw [inReceive_nil hr]
    have := length_le_of_nodup_lt n s.ready ho.readyNd hready
    simp; omega
  | some x =>
    have hx := (ho.rx x).1 hr
    have : s.ready.length < n := by
      refine length_lt_of_fresh ho.readyNd hready hx.1 ?_
      intro hc; have := (ho.ready x).1 hc; rw [hx.2] at this; cases this.2
    have h1 : (inReceive s).length ≤ 1 := by
      unfold inReceive; split
      · cases s.slots _ <;> simp
      · cases s.slots _ <;> simp
      · simp
      · simp
    omega

/-- **C03** When all senders and the receiver are quiet and the queue is empty, all `n` slots are available. -/
theorem C03_all_slots_return {n : Nat} {s : St T} {tr : List (Ev T)} (h : Reach n s tr) (halive : s.rcvDropped = false)
    (hq : ∀ i, Quiet s i) (hr : s.rx = .idle ∨ ∃ w, s.rx = .pend w) (hempty : queued s = []) : s.free.length = n := by
  have hI := reach_inv h
  obtain ⟨own, ho⟩ := hI.o
  have hready : s.ready = [] := by
    cases hr : s.ready with
    | nil => rfl
    | cons x q =>
      obtain ⟨v, hv⟩ := hI.s.cready x (by rw [hr]; exact List.mem_cons_self)
      simp [queued, hr, hv] at hempty
  have hall : ∀ x, x < n → x ∈ s.free := by
    intro x hx
    obtain ⟨p, hp, -⟩ := C02_slot_has_owner h halive x hx
    cases p with
    | freePool => exact hp
    | queue => rw [show At s x .queue = (x ∈ s.ready) from rfl, hready] at hp; cases hp
    | sender i =>
      rw [at_sender] at hp
      rcases hq i with h | h | h <;> rw [h] at hp <;> cases hp
    | promised i =>
      have hi := hI.q.slpc i x hp
      have hl := hI.q.lkpc i
      rcases hi with ⟨l, hl', -⟩ | hd
      · have := hl l hl'
        rcases hq i with h | h | h <;> rw [h] at this <;> cases this
      · rcases hq i with h | h | h <;> rw [h] at hd <;> cases hd
    | receive =>
      rw [at_receive] at hp
      rcases hr with h | ⟨w, h⟩ <;> rw [h] at hp <;> cases hp
  have h1 := length_le_of_nodup_lt n s.free ho.freeNd (fun x hx => ((ho.free x).1 hx).1)
  have h2 : (List.range n).length ≤ s.free.length :=
    List.nodup_range.length_le_of_subset (fun x hx => hall x (List.mem_range.1 hx))
  simp at h2; omega

example : (exec 2 (init 2) (demoActs ++ [.startTryRecv, .goR, .goR, .goR])).map
    (fun r => (r.1.free, queued r.1, r.1.rx, r.1.snd 0, r.1.snd 1)) = some ([0, 1], [], .idle, .idle, .idle) := by decide

/-! ## C04 -/

/-- The part of the state that belongs to the channel (not to operations in progress). -/
def chan (s : St T) : List Nat × List Nat × (Nat → Option T) × List Nat × Bool × Nat × Option Nat :=
  (s.free, s.ready, s.slots, s.wq, s.rcvDropped, s.num, s.rwk)

/-- **C04** `try_send` answers `Full(v)` only if at this moment some sender is waiting or no slot is free, and `NoReceiver(v)`
only if the receiver has been dropped; `v` is the argument of the call, and the channel is left unchanged by the failing
check; the sender is usable again. -/
theorem C04_error_truthful {n : Nat} {s s' : St T} {tr e : List (Ev T)} {a : Act T} {i : Nat} {v : T} (h : Reach n s tr)
    (hs : step n s a = some (s', e)) :
    (Ev.tryFull i v ∈ e → (s.wq ≠ [] ∨ s.free = []) ∧ chan s' = chan s ∧ s'.snd i = .idle ∧
      opState i none (tr ++ e) = some (v, [])) ∧
    (Ev.tryClosed i v ∈ e → s.rcvDropped = true ∧ chan s' = chan s ∧ s'.snd i = .idle ∧
      opState i none (tr ++ e) = some (v, [])) := by
  have hA := fun hh => C01_error_means_not_sent h hs (i := i) (v := v) hh
  constructor
  · intro hm
    have hop := hA (.inr (.inl hm))
    refine ⟨?_, ?_, ?_, hop⟩ <;> clear hop hA <;> cases trans_of_step hs with
    | try0Full j w hj hq => simp at hm; obtain ⟨rfl, rfl⟩ := hm; simp_all [chan]
    | try2Full j w hj hq => simp at hm; obtain ⟨rfl, rfl⟩ := hm; simp_all [chan]
    | drop1None j w k hj hx => cases k <;> simp [finEv] at hm
    | drop1Free j w k x hj hx hq => cases k <;> simp [finEv] at hm
    | drop1Bad j w k x j' q hj hx hq hl => cases k <;> simp [finEv] at hm
    | drop1Grant j w k x j' q l hj hx hq hl => cases k <;> simp [finEv] at hm
    | _ => simp at hm
  · intro hm
    have hop := hA (.inr (.inr (.inl hm)))
    refine ⟨?_, ?_, ?_, hop⟩ <;> clear hop hA <;> cases trans_of_step hs with
    | try1Closed j w hj hc => simp at hm; obtain ⟨rfl, rfl⟩ := hm; simp_all [chan]
    | drop1None j w k hj hx => cases k <;> simp [finEv] at hm
    | drop1Free j w k x hj hx hq => cases k <;> simp [finEv] at hm
    | drop1Bad j w k x j' q hj hx hq hl => cases k <;> simp [finEv] at hm
    | drop1Grant j w k x j' q l hj hx hq hl => cases k <;> simp [finEv] at hm
    | _ => simp at hm

/-- **C04** The checks of `try_send` before it obtains a slot do not change the channel. -/
theorem C04_checks_pure {n : Nat} {s s' : St T} {e : List (Ev T)} {i : Nat} {v : T}
    (hpc : s.snd i = .try0 v ∨ s.snd i = .try1 v ∨ (s.snd i = .try2 v ∧ s.free = []))
    (hs : step n s (.go i) = some (s', e)) : chan s' = chan s := by
  rcases hpc with h | h | ⟨h, hf⟩ <;> simp only [step, goS, h] at hs
  · split at hs <;> cases hs <;> rfl
  · split at hs <;> cases hs <;> rfl
  · simp only [hf] at hs; cases hs; simp [chan, hf]

/-- **C04** `try_send` never blocks: from every state its next step exists, and an uninterrupted `try_send` ends after at most
seven steps with: `Full` if a sender waits, else `NoReceiver` if the receiver is gone, else `Full` if no slot is free, else
success with the value enqueued. -/
theorem C04_uninterrupted {n : Nat} {s : St T} {tr : List (Ev T)} {i : Nat} (v : T) (h : Reach n s tr)
    (hi : s.snd i = .idle) :
    ∃ as s' e, (∀ a ∈ as, a = .go i) ∧ as.length ≤ 6 ∧ exec n s (.startTry i v :: as) = some (s', e) ∧ s'.snd i = .idle ∧
      (if s.wq ≠ [] then e = [.start i v, .tryFull i v]
       else if s.rcvDropped = true then e = [.start i v, .tryClosed i v]
       else if s.free = [] then e = [.start i v, .tryFull i v]
       else Ev.enq i v ∈ e ∧ Ev.sendOk i ∈ e ∧ queued s' = queued s ++ [v]) := by
  have hI := reach_inv h
  obtain ⟨own, ho⟩ := hI.o
  by_cases hq : s.wq ≠ []
  · refine ⟨[.go i], _, _, by simp, by simp, (by simp [exec, step, hi, goS, hq]; exact ⟨rfl, rfl⟩), ?_, ?_⟩
    · simp
    · simp [hq]
  · have hq' : s.wq = [] := by simpa using hq
    by_cases hc : s.rcvDropped = true
    · refine ⟨[.go i, .go i], _, _, by simp, by simp, (by simp [exec, step, hi, goS, hq', hc]; exact ⟨rfl, rfl⟩), ?_, ?_⟩
      · simp
      · simp [hq', hc]
    · cases hf : s.free with
      | nil =>
        refine ⟨[.go i, .go i, .go i], _, _, by simp, by simp, (by simp [exec, step, hi, goS, hq', hc, hf]; exact ⟨rfl, rfl⟩), ?_, ?_⟩
        · simp
        · simp [hq', hc]
      | cons x f =>
        have hx : x ∉ s.ready := by
          intro hr; have h1 := (ho.ready x).1 hr; have h2 := (ho.free x).1 (by rw [hf]; exact List.mem_cons_self)
          rw [h1.2] at h2; cases h2.2
        have hcong : s.ready.filterMap (set s.slots x (some v)) = s.ready.filterMap s.slots := by
          apply filterMap_congr'
          intro y hy
          have : y ≠ x := by rintro rfl; exact hx hy
          exact set_ne _ _ this
        cases hw : s.rwk with
        | none =>
          refine ⟨[.go i, .go i, .go i, .go i, .go i, .go i], _, _, by simp, by simp, (by simp [exec, step, hi, goS, hq', hc, hf, wakeR, hw]; exact ⟨rfl, rfl⟩), ?_, ?_⟩
          · simp
          · simp [hq', hc, queued, hcong]
        | some w =>
          refine ⟨[.go i, .go i, .go i, .go i, .go i, .go i], _, _, by simp, by simp, (by simp [exec, step, hi, goS, hq', hc, hf, wakeR, hw]; exact ⟨rfl, rfl⟩), ?_, ?_⟩
          · simp
          · simp [hq', hc, queued, hcong]

/-- Non-vacuity: a full channel of capacity 1. -/
example : (exec 1 (init 1) [.startTry 0 'x', .go 0, .go 0, .go 0, .go 0, .go 0, .go 0, .startTry 0 'y', .go 0, .go 0, .go 0]).map
    (·.2) = some [.start 0 'x', .enq 0 'x', .sendOk 0, .start 0 'y', .tryFull 0 'y'] := by decide

end Verif.Channel
