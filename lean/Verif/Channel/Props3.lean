import Verif.Channel.Props2

/-! # C09–C11 -/

namespace Verif.Channel

variable {T : Type}

/-! ## C09

Full statement (false for this code, see `C09_nosender_violated`): whenever `try_recv`/`recv` reports `NoSender`, all senders
have been dropped **and** the channel contains no value, so that a receiver that stops at `NoSender` misses nothing. -/

/-- The full English claim of C09 as a predicate on executions of channels with element type `T`. -/
def NoSenderMeansDone (T : Type) : Prop :=
  ∀ (n : Nat) (s s' : St T) (tr e : List (Ev T)) (a : Act T), Reach n s tr → step n s a = some (s', e) →
    Ev.recvNoSender ∈ e → (∀ i, ¬ Alive s' i) ∧ queued s' = []

/-- The preemption that breaks C09: `try_recv` finds the queue empty; before it looks at the sender count, a sender preempts,
sends `'v'` successfully and is dropped; `try_recv` resumes and reports `NoSender`, although `'v'` is in the queue. -/
def noSenderActs : List (Act Char) :=
  [.startTryRecv, .goR, .startTry 0 'v', .go 0, .go 0, .go 0, .go 0, .go 0, .go 0, .dropS 0, .go 0]

/-- **C09** is violated by the code: `NoSender` is reported while a successfully sent value is in the queue
(`channel.rs:593-614`: the emptiness check and the sender-count check are in different critical sections). -/
theorem C09_nosender_violated : ¬ NoSenderMeansDone Char := by
  intro h
  have hex : ∃ s tr, exec 1 (init 1) noSenderActs = some (s, tr) ∧ s.rx = .empty none ∧ s.num = 0 ∧ s.ready = [0] ∧
      s.slots 0 = some 'v' ∧ Ev.sendOk 0 ∈ tr := by
    refine ⟨_, _, rfl, ?_, ?_, ?_, ?_, ?_⟩ <;> decide
  obtain ⟨s, tr, he, hr, hn, hq, hv, -⟩ := hex
  have := (h 1 s { s with rx := .idle } tr [.recvNoSender] .goR ⟨_, he⟩ (by simp [step, goR, hr, hn]) (by simp)).2
  simp [queued, hq, hv] at this

theorem enq_mem_tr {n : Nat} {s s' : St T} {e : List (Ev T)} (hg : ∀ i, ¬ Alive s i) (hs : Tr n s s' e) :
    (∀ i, ¬ Alive s' i) ∧ ∀ i v, Ev.enq i v ∉ e := by
  have hg' : ∀ i, s.snd i = .absent ∨ s.snd i = .dropW := by
    intro i; have := hg i; unfold Alive at this
    by_cases h1 : s.snd i = .absent
    · exact .inl h1
    · by_cases h2 : s.snd i = .dropW
      · exact .inr h2
      · exact absurd ⟨h1, h2⟩ this
  cases hs with
  | dropWN i hi hw =>
    refine ⟨fun j => ?_, by simp⟩
    by_cases hj : j = i
    · subst hj; simp [Alive]
    · simp only [Alive, set_ne _ _ hj]; exact hg j
  | dropWS i w hi hw =>
    refine ⟨fun j => ?_, by simp⟩
    by_cases hj : j = i
    · subst hj; simp [Alive]
    · simp only [Alive, set_ne _ _ hj]; exact hg j
  | _ =>
    first
      | exact ⟨hg, by simp⟩
      | (exfalso; grind)

/-- **C09 (part)** When `NoSender` is reported, all senders have been dropped, and in no continuation is any value ever put
into the channel again. (Missing part of C09: that the queue is empty; false, see `C09_nosender_violated`.) -/
theorem C09_nosender_partial {n : Nat} {s s' s'' : St T} {tr e e' : List (Ev T)} {a : Act T} {as : List (Act T)}
    (h : Reach n s tr) (hs : step n s a = some (s', e)) (hm : Ev.recvNoSender ∈ e)
    (hc : exec n s' as = some (s'', e')) : (∀ i, ¬ Alive s' i) ∧ ∀ i v, Ev.enq i v ∉ e' := by
  have hI := inv_tr (reach_inv h) (trans_of_step hs)
  have hg : ∀ i, ¬ Alive s' i := by
    refine (num_zero_iff hI).1 ?_
    cases trans_of_step hs with
    | emptyClosed m hr hn => exact hn
    | drop1None i v k hi hx => cases k <;> simp [finEv] at hm
    | drop1Free i v k x hi hx hq => cases k <;> simp [finEv] at hm
    | drop1Grant i v k x j q l hi hx hq hl => cases k <;> simp [finEv] at hm
    | drop1Bad i v k x j q hi hx hq hl => cases k <;> simp [finEv] at hm
    | _ => simp at hm
  refine ⟨hg, ?_⟩
  have := exec_induct (n := n) (P := fun s tr => (∀ i, ¬ Alive s i) ∧ ∀ i v, Ev.enq i v ∉ tr)
    (fun s tr s' e h ht => by
      obtain ⟨a, b⟩ := enq_mem_tr h.1 ht
      refine ⟨a, fun i v hm => ?_⟩
      rcases List.mem_append.1 hm with hm | hm
      · exact h.2 i v hm
      · exact b i v hm) as s' [] s'' e' ⟨hg, by simp⟩ hc
  simpa using this.2

/-- **C09 (part)** If the receive is not preempted between its two checks, `NoSender` does mean that every value ever sent has
been received. -/
theorem C09_uninterrupted_partial {n : Nat} {s s1 s2 : St T} {tr e1 e2 : List (Ev T)} {m : Option Nat} (h : Reach n s tr)
    (hr : s.rx = .tr0 m) (h1 : step n s .goR = some (s1, e1)) (h2 : step n s1 .goR = some (s2, e2))
    (hm : Ev.recvNoSender ∈ e2) : queued s2 = [] ∧ sentVals (tr ++ e1 ++ e2) = recvVals (tr ++ e1 ++ e2) := by
  have hR2 := reach_step (reach_step h h1) h2
  cases hq : s.ready with
  | cons x q =>
    simp only [step, goR, hr, hq] at h1; cases h1
    simp only [step, goR] at h2
    cases hv : s.slots x with
    | none => simp only [hv] at h2; cases h2; simp at hm
    | some v => simp only [hv] at h2; cases h2; simp at hm
  | nil =>
    simp only [step, goR, hr, hq] at h1; cases h1
    simp only [step, goR] at h2
    split at h2
    · cases h2
      have hd : s.rcvDropped = false := by rw [(reach_inv h).d.iff, hr]; rfl
      have hf := C01_fifo hR2 hd
      refine ⟨by simp [queued], ?_⟩
      rw [← hf]; simp [queued, inReceive]
    · cases h2; cases m <;> simp [emptyResult] at hm

/-- Non-vacuity: an uninterrupted `try_recv` after the last sender sent one value and left, and the value was received. -/
example : (exec 1 (init 1) [.startTry 0 'v', .go 0, .go 0, .go 0, .go 0, .go 0, .go 0, .dropS 0, .go 0, .startTryRecv, .goR,
    .goR, .goR, .startTryRecv, .goR, .goR]).map (fun r => (r.1.rx, r.2.reverse.take 2))
    = some (.idle, [.recvNoSender, .recvd 'v']) := by decide

/-! ## C10

Full statement (false for this code, see `C10_reuse_violated`): after all senders and the receiver have been dropped, `split`
gives a working empty channel. -/

/-- All handles of the channel are gone and no destructor is still running. -/
def AllDropped (s : St T) : Prop := (∀ i, s.snd i = .absent) ∧ s.rx = .gone

/-- **C10** is violated by the code, for *every* previous history: after `split` the channel is still marked closed, and in no
continuation is any value ever accepted from the new sender, nor from any other (`split`, `channel.rs:115-140`, does not reset
`receiver_dropped`). -/
theorem C10_reuse_violated {n : Nat} {s s' : St T} {tr e : List (Ev T)} {as : List (Act T)} (i j : Nat) (h : Reach n s tr)
    (hd : AllDropped s) (he : exec n (split n s i) as = some (s', e)) :
    (∀ v, Ev.enq j v ∉ e) ∧ Ev.sendOk j ∉ e := by
  have hc := (C08_no_waiters_left h hd.2).2
  refine C08_closed_forever (n := n) (s := split n s i) (i := j) (by simpa [split] using hc) ?_ he
  by_cases hj : j = i
  · subst hj; exact .inl (by simp [split])
  · exact .inr (.inl (by simp [split, set_ne _ _ hj, hd.1 j]))

/-- Non-vacuity of `AllDropped`, and the immediate symptom: `try_send` on the re-split channel reports `NoReceiver`. -/
example : (exec 2 (init 2) [.dropS 0, .go 0, .dropR, .goR, .goR, .goR]).map
      (fun r => (r.1.snd 0, r.1.rx, (exec 2 (split 2 r.1 1) [.startTry 1 'a', .go 1, .go 1]).map (·.2)))
    = some (.absent, .gone, some [.start 1 'a', .tryClosed 1 'a']) := by decide

/-- A second way in which reuse fails: a `try_send` that passed its closed check before the receiver was dropped leaves its value
in `readyq` after the drain; the next `split` then fails its `debug_assert!` (in a release build, the old value is received from the new
channel). -/
theorem C10_leftover_violated : ∃ (s : St Char) (tr : List (Ev Char)), Reach 1 s tr ∧ AllDropped s ∧ s.bad = false ∧
    queued s = ['v'] ∧ Ev.sendOk 0 ∈ tr ∧ (split 1 s 1).bad = true := by
  have hex : ∃ s tr, exec 1 (init 1) [.startTry 0 'v', .go 0, .go 0, .go 0, .dropR, .goR, .goR, .goR, .go 0, .go 0, .go 0,
      .dropS 0, .go 0] = some (s, tr) ∧ s.bad = false ∧ queued s = ['v'] ∧ Ev.sendOk 0 ∈ tr ∧ (split 1 s 1).bad = true ∧
      s.rx = .gone ∧ s.snd 0 = .absent ∧ s.num = 0 := by
    refine ⟨_, _, rfl, ?_, ?_, ?_, ?_, ?_, ?_, ?_⟩ <;> decide
  obtain ⟨s, tr, he, h1, h2, h3, h4, h5, h6, h7⟩ := hex
  have hI := reach_inv ⟨_, he⟩
  refine ⟨s, tr, ⟨_, he⟩, ⟨?_, h5⟩, h1, h2, h3, h4⟩
  have hs : s.snd = set (fun _ => .absent) 0 .absent := by
    have : ∀ r : St Char × List (Ev Char), exec 1 (init 1) [.startTry 0 'v', .go 0, .go 0, .go 0, .dropR, .goR, .goR, .goR,
        .go 0, .go 0, .go 0, .dropS 0, .go 0] = some r → ∀ i, r.1.snd i = .absent := by
      intro r hr i
      have hr' := hr
      by_cases hi : i = 0
      · subst hi; rw [he] at hr; cases hr; exact h6
      · simp only [exec, step, goS, goR, init, wakeR] at hr
        simp [set] at hr
        subst hr
        simp [set, hi]
    funext i; rw [this _ he i]; simp [set]
  intro i; rw [hs]; simp [set]

/-- **C10 (part)** What `split` does restore: if nothing was left in the ready queue (no send overlapped the drop of the
receiver), then resetting the closed flag (and the stale receiver waker) is the *only* thing missing: with these two fields
reset, the result of `split` is exactly a newly created channel whose sender has number `i`. (Missing part of C10: the
reset of the flag, and emptying `readyq`.) -/
theorem C10_reuse_partial {n : Nat} {s : St T} {tr : List (Ev T)} (i : Nat) (h : Reach n s tr) (hd : AllDropped s)
    (hempty : queued s = []) :
    { split n s i with rcvDropped := false, rwk := none } = { (init n : St T) with snd := set (fun _ => .absent) i .idle } := by
  have hI := reach_inv h
  obtain ⟨hs, hr⟩ := hd
  have hready : s.ready = [] := by
    cases hr : s.ready with
    | nil => rfl
    | cons x q =>
      obtain ⟨v, hv⟩ := hI.s.cready x (by rw [hr]; exact List.mem_cons_self)
      simp [queued, hr, hv] at hempty
  have hlk : s.lk = fun _ => none := by
    funext j; cases hl : s.lk j with
    | none => rfl
    | some l => have := hI.q.lkpc j l hl; rw [hs j] at this; cases this
  have hsl : s.sl = fun _ => none := by
    funext j; cases hl : s.sl j with
    | none => rfl
    | some x =>
      rcases hI.q.slpc j x hl with ⟨l, h1, -⟩ | h1
      · rw [hlk] at h1; cases h1
      · rw [hs j] at h1; cases h1
  have hslots : s.slots = fun _ => none := by
    funext x; cases hv : s.slots x with
    | none => rfl
    | some v =>
      rcases hI.s.cnone x v hv with h1 | ⟨j, v', h1⟩ | h1
      · rw [hready] at h1; cases h1
      · rw [hs j] at h1; cases h1
      · rw [hr] at h1; cases h1
  have hbad : s.bad = false := hI.s.nobad
  have hwq : s.wq = [] := hI.d.gone hr
  have hsnd : s.snd = fun _ => .absent := funext hs
  simp [split, init, hready, hlk, hsl, hslots, hbad, hwq, hsnd]

/-! ## C11 -/

theorem full_iff {n : Nat} {l : List Nat} (hnd : l.Nodup) (hb : ∀ x ∈ l, x < n) : l.length = n ↔ ∀ x, x < n → x ∈ l := by
  constructor
  · intro hl x hx
    refine Classical.byContradiction fun hc => ?_
    have := length_lt_of_fresh hnd hb hx hc
    omega
  · intro h
    have h1 := length_le_of_nodup_lt n l hnd hb
    have h2 := List.Nodup.length_le_of_subset (l₁ := List.range n) (l₂ := l) List.nodup_range
      (fun x hx => h x (List.mem_range.1 hx))
    simp at h2; omega

/-- **C11** The sender's queries: `is_closed` iff the receiver has been dropped; `is_full` iff no slot is in the free pool;
`is_empty` iff every slot is in the free pool, that is (`C02_slot_has_owner`) nothing is queued, promised or in transit. They
do not change the channel. -/
theorem C11_sender_queries {n : Nat} {s s' : St T} {tr e : List (Ev T)} {i : Nat} (h : Reach n s tr)
    (hs : step n s (.sQuery i) = some (s', e)) :
    s' = s ∧ ∃ c f m, e = [.sIsClosed c, .sIsFull f, .sIsEmpty m] ∧
      (c = true ↔ s.rcvDropped = true) ∧ (f = true ↔ ∀ x, ¬ At s x .freePool) ∧ (m = true ↔ ∀ x, x < n → At s x .freePool) := by
  obtain ⟨own, ho⟩ := (reach_inv h).o
  simp only [step] at hs
  split at hs
  · cases hs
    refine ⟨rfl, _, _, _, rfl, Iff.rfl, ?_, ?_⟩
    · simp only [decide_eq_true_eq, At]; exact List.eq_nil_iff_forall_not_mem
    · simp only [decide_eq_true_eq, At]; exact full_iff ho.freeNd fun x hx => ((ho.free x).1 hx).1
  · cases hs

/-- **C11** While the receiver is alive, `Sender::is_empty` is true exactly if no slot is queued, used by an operation, or
promised to a waiting sender. -/
theorem C11_sender_is_empty_iff_nothing_in_transit {n : Nat} {s s' : St T} {tr e : List (Ev T)} {i : Nat} (h : Reach n s tr)
    (halive : s.rcvDropped = false) (hs : step n s (.sQuery i) = some (s', e)) :
    Ev.sIsEmpty true ∈ e ↔ ∀ x p, x < n → At s x p → p = .freePool := by
  obtain ⟨-, c, f, m, rfl, -, -, hm⟩ := C11_sender_queries h hs
  have : Ev.sIsEmpty true ∈ [Ev.sIsClosed c, Ev.sIsFull f, (Ev.sIsEmpty m : Ev T)] ↔ m = true := by simp [eq_comm]
  rw [this, hm]
  constructor
  · intro ha x p hx hp; exact (C02_slot_exclusive h x).1 p _ hp (ha x hx)
  · intro ha x hx
    obtain ⟨p, hp, -⟩ := C02_slot_has_owner h halive x hx
    rw [← ha x p hx hp]; exact hp

/-- **C11** The receiver's queries: `is_closed` iff all senders have been dropped, `is_full` iff `n` values are queued,
`is_empty` iff none is. They do not change the channel. -/
theorem C11_receiver_queries {n : Nat} {s s' : St T} {tr e : List (Ev T)} (h : Reach n s tr)
    (hs : step n s .rQuery = some (s', e)) :
    s' = s ∧ ∃ c f m, e = [.rIsClosed c, .rIsFull f, .rIsEmpty m] ∧
      (c = true ↔ ∀ i, ¬ Alive s i) ∧ (f = true ↔ (queued s).length = n) ∧ (m = true ↔ queued s = []) := by
  have hI := reach_inv h
  have hlen : (queued s).length = s.ready.length := by
    have : ∀ l : List Nat, (∀ x ∈ l, ∃ v, s.slots x = some v) → (l.filterMap s.slots).length = l.length := by
      intro l; induction l with
      | nil => simp
      | cons x l ih =>
        intro hl
        obtain ⟨v, hv⟩ := hl x List.mem_cons_self
        simp [hv, ih fun y hy => hl y (List.mem_cons_of_mem _ hy)]
    exact this _ hI.s.cready
  simp only [step] at hs
  split at hs
  · cases hs
    refine ⟨rfl, _, _, _, rfl, ?_, ?_, ?_⟩
    · simp only [decide_eq_true_eq]; exact num_zero_iff hI
    · simp only [decide_eq_true_eq, hlen]
    · simp only [decide_eq_true_eq]; rw [← List.length_eq_zero_iff, ← List.length_eq_zero_iff, hlen]
  · cases hs

/-- **C11** `Receiver::is_empty` agrees with an immediately following `try_recv`: that finds a value exactly if the query says
non-empty. -/
theorem C11_is_empty_predicts_try_recv {n : Nat} {s s' s1 s2 : St T} {e e1 e2 : List (Ev T)}
    (hs : step n s .rQuery = some (s', e)) (h1 : step n s' .startTryRecv = some (s1, e1))
    (h2 : step n s1 .goR = some (s2, e2)) :
    (Ev.rIsEmpty true ∈ e ↔ s2.rx = .empty none) ∧ (Ev.rIsEmpty false ∈ e ↔ ∃ x, s2.rx = .got none x) := by
  simp only [step] at hs
  split at hs
  · cases hs
    simp only [step] at h1
    split at h1
    · cases h1
      simp only [step, goR] at h2
      cases hq : s.ready with
      | nil => simp only [hq] at h2; cases h2; simp
      | cons x q => simp only [hq] at h2; cases h2; simp
    · cases h1
  · cases hs

/-- Non-vacuity: capacity 2, one value queued and one send in transit: the sender side says full, the receiver side neither. -/
example : (exec 2 (init 2) [.clone 0 1, .clone 0 2, .startTry 0 'v', .go 0, .go 0, .go 0, .go 0, .go 0, .go 0,
    .startTry 1 'w', .go 1, .go 1, .go 1, .sQuery 2, .rQuery]).map (fun r => r.2.reverse.take 6)
    = some [.rIsEmpty false, .rIsFull false, .rIsClosed false, .sIsEmpty false, .sIsFull true, .sIsClosed false] := by
  decide

end Verif.Channel
