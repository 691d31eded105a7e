import Verif.Channel.Props3

/-!
# Channel operations are wait-free (C73)

Every operation finishes after a bounded number of its own critical sections, whatever the others do in between, and no operation is ever blocked in the middle.
-/

namespace Verif.Channel

variable {T : Type}

/-! ## Senders -/

/-- An operation of the sender is in progress (for `send`: a poll, or the clean-up when the future is dropped). -/
def Pc.busy : Pc T → Bool
  | .absent | .idle | .snd _ => false
  | _ => true

/-- The action begins a new operation, or a new poll, of sender `i`. -/
def beginsS (i : Nat) : Act T → Bool
  | .clone _ j => j == i
  | .dropS j | .startTry j _ | .startSend j _ | .poll j _ | .cancel j => j == i
  | _ => false

/-- The action is the next critical section of the operation of sender `i`. -/
def isGo (i : Nat) : Act T → Bool
  | .go j => j == i
  | _ => false

/-- critical sections an operation has before it at most -/
def rankS : Pc T → Nat
  | .try0 _ => 6
  | .try1 _ => 5
  | .try2 _ => 4
  | .drop0 _ _ => 5
  | .drop1 _ _ => 4
  | .hold _ _ => 3
  | .written _ _ => 2
  | .pushed | .dropW => 1
  | .absent | .idle | .snd _ => 0

theorem returnFreeSlot_snd (n : Nat) (s : St T) (x : Nat) : (returnFreeSlot n s x).1.snd = s.snd ∧ (returnFreeSlot n s x).1.rx = s.rx := by
  unfold returnFreeSlot
  split
  · split <;> exact ⟨rfl, rfl⟩
  · exact ⟨rfl, rfl⟩

theorem wakeR_snd (s : St T) : (wakeR s).1.snd = s.snd ∧ (wakeR s).1.rx = s.rx := by
  unfold wakeR; split <;> exact ⟨rfl, rfl⟩

theorem register_snd (s : St T) (w : Nat) : (register s w).1.snd = s.snd := by
  unfold register; split
  · split <;> rfl
  · rfl

theorem goS_snd {n : Nat} {s s' : St T} {i : Nat} {e : List (Ev T)} (hs : goS n s i = some (s', e)) :
    rankS (s'.snd i) < rankS (s.snd i) ∧ (∀ j, j ≠ i → s'.snd j = s.snd j) ∧ s'.rx = s.rx := by
  unfold goS at hs
  split at hs
  all_goals (rename_i hpc)
  all_goals first
    | (cases hs; done)
    | (split at hs <;> cases hs <;> (refine ⟨by simp [rankS, hpc], fun j hj => by simp [set, hj], rfl⟩) <;> done)
    | (cases hs; refine ⟨by simp [rankS, hpc], fun j hj => by simp [set, hj], rfl⟩; done)
    | skip
  · rename_i v k
    have hr : ∀ x, (returnFreeSlot n { s with sl := set s.sl i none } x).1.rx = s.rx := fun x => (returnFreeSlot_snd _ _ _).2
    cases hsl : s.sl i with
    | none =>
      simp only [hsl] at hs
      cases k <;> cases hs <;> (refine ⟨by simp [rankS, hpc], fun j hj => by simp [set, hj], rfl⟩)
    | some x =>
      simp only [hsl] at hs
      cases k <;> cases hs <;> (refine ⟨by simp [rankS, hpc], fun j hj => by simp [set, hj], hr x⟩)
  · cases hs
    refine ⟨by simp [rankS, hpc], fun j hj => by simp [set, hj], (wakeR_snd s).2⟩
  · cases hs
    refine ⟨by simp [rankS, hpc], fun j hj => by simp [set, hj], (wakeR_snd s).2⟩

theorem pollSend_snd (s : St T) (i : Nat) (v : T) (w : Nat) : (∀ j, j ≠ i → (pollSend s i v w).snd j = s.snd j) ∧ (pollSend s i v w).rx = s.rx := by
  have key : ∀ (x : Pc T) j, j ≠ i → set s.snd i x j = s.snd j := fun x j h => set_ne _ _ h
  unfold pollSend
  split
  · exact ⟨key _, rfl⟩
  · split
    · split
      · split <;> exact ⟨key _, rfl⟩
      · exact ⟨fun _ _ => rfl, rfl⟩
    · split
      · exact ⟨fun _ _ => rfl, rfl⟩
      · split
        · exact ⟨key _, rfl⟩
        · exact ⟨fun _ _ => rfl, rfl⟩

theorem goR_snd {n : Nat} {s s' : St T} {e : List (Ev T)} (hs : goR n s = some (s', e)) : s'.snd = s.snd := by
  unfold goR at hs
  split at hs
  all_goals first
    | (cases hs; done)
    | (cases hs; rfl)
    | (split at hs <;> cases hs <;> rfl)
    | skip
  · cases hs; exact register_snd _ _
  · cases hs; exact (returnFreeSlot_snd _ _ _).1
  · split at hs
    · split at hs <;> cases hs <;> rfl
    · cases hs; rfl

/-- What one step does to the program counter of sender `i`. -/
theorem step_snd {n : Nat} {s s' : St T} {a : Act T} {e : List (Ev T)} (i : Nat) (hs : step n s a = some (s', e)) :
    (isGo i a = true → rankS (s'.snd i) < rankS (s.snd i)) ∧ (isGo i a = false → beginsS i a = false → s'.snd i = s.snd i) := by
  have key : ∀ (j : Nat) (x : Pc T), (j == i) = false → set s.snd j x i = s.snd i := fun j x h => set_ne _ _ (by rintro rfl; simp at h)
  cases a with
  | clone j k =>
    refine ⟨by simp [isGo], fun _ hb => ?_⟩
    simp only [step] at hs
    split at hs <;> cases hs
    exact key _ _ hb
  | dropS j =>
    refine ⟨by simp [isGo], fun _ hb => ?_⟩
    simp only [step] at hs
    split at hs <;> cases hs
    exact key _ _ hb
  | startTry j v =>
    refine ⟨by simp [isGo], fun _ hb => ?_⟩
    simp only [step] at hs
    split at hs <;> cases hs
    exact key _ _ hb
  | startSend j v =>
    refine ⟨by simp [isGo], fun _ hb => ?_⟩
    simp only [step] at hs
    split at hs <;> cases hs
    exact key _ _ hb
  | poll j w =>
    refine ⟨by simp [isGo], fun _ hb => ?_⟩
    simp only [step] at hs
    split at hs <;> cases hs
    exact (pollSend_snd _ _ _ _).1 _ (by rintro rfl; simp [beginsS] at hb)
  | cancel j =>
    refine ⟨by simp [isGo], fun _ hb => ?_⟩
    simp only [step] at hs
    split at hs <;> cases hs
    exact key _ _ hb
  | go j =>
    simp only [step] at hs
    obtain ⟨h1, h2, -⟩ := goS_snd hs
    refine ⟨fun h => ?_, fun h _ => h2 i (by rintro rfl; simp [isGo] at h)⟩
    have : j = i := by simpa [isGo] using h
    subst this; exact h1
  | goR => exact ⟨by simp [isGo], fun _ _ => by rw [goR_snd hs]⟩
  | sQuery j => refine ⟨by simp [isGo], fun _ _ => ?_⟩; simp only [step] at hs; split at hs <;> cases hs; rfl
  | startTryRecv => refine ⟨by simp [isGo], fun _ _ => ?_⟩; simp only [step] at hs; split at hs <;> cases hs; rfl
  | pollRecv w => refine ⟨by simp [isGo], fun _ _ => ?_⟩; simp only [step] at hs; split at hs <;> cases hs <;> rfl
  | cancelRecv => refine ⟨by simp [isGo], fun _ _ => ?_⟩; simp only [step] at hs; split at hs <;> cases hs; rfl
  | dropR => refine ⟨by simp [isGo], fun _ _ => ?_⟩; simp only [step] at hs; split at hs <;> cases hs; rfl
  | rQuery => refine ⟨by simp [isGo], fun _ _ => ?_⟩; simp only [step] at hs; split at hs <;> cases hs; rfl

theorem sender_rank {n : Nat} {s s' : St T} {as : List (Act T)} {e : List (Ev T)} (i : Nat) (he : exec n s as = some (s', e))
    (hb : ∀ a ∈ as, beginsS i a = false) : as.countP (isGo i) + rankS (s'.snd i) ≤ rankS (s.snd i) := by
  induction as generalizing s e with
  | nil => simp only [exec, Option.some.injEq, Prod.mk.injEq] at he; obtain ⟨rfl, rfl⟩ := he; simp
  | cons a as ih =>
    simp only [exec] at he
    split at he
    · cases he
    · rename_i s1 e1 h1
      split at he
      · cases he
      · rename_i s2 e2 h2
        cases he
        have := ih h2 fun a ha => hb a (List.mem_cons_of_mem _ ha)
        obtain ⟨hg, hn⟩ := step_snd i h1
        rw [List.countP_cons]
        cases hga : isGo i a with
        | true => have := hg hga; simp; omega
        | false => rw [hn hga (hb a List.mem_cons_self)] at this; simpa using this

/-- **C73** A call of `try_send`, a poll of a `send` future, the dropping of a `send` future, the dropping of a sender: from any moment on, whatever the other senders and the receiver do in between, such an operation goes through at most six
critical sections of its own, and when it has gone through six it has ended. (`hb`: the next operation of this sender has not begun.) -/
theorem C73_sender_bounded {n : Nat} {s s' : St T} {as : List (Act T)} {e : List (Ev T)} (i : Nat) (he : exec n s as = some (s', e))
    (hb : ∀ a ∈ as, beginsS i a = false) : as.countP (isGo i) ≤ 6 ∧ ((s'.snd i).busy = true → as.countP (isGo i) < 6) := by
  have h := sender_rank i he hb
  have h6 : rankS (s.snd i) ≤ 6 := by cases s.snd i <;> simp [rankS]
  refine ⟨by omega, fun hbusy => ?_⟩
  have : 0 < rankS (s'.snd i) := by cases hp : s'.snd i <;> simp_all [rankS, Pc.busy]
  omega

/-- **C73** An operation of a sender that is in progress is never blocked: its next critical section can be executed in every state. -/
theorem C73_sender_never_stuck {n : Nat} {s : St T} {i : Nat} (hb : (s.snd i).busy = true) : ∃ s' e, step n s (.go i) = some (s', e) := by
  simp only [step, goS]
  cases h : s.snd i <;> simp [h, Pc.busy] at hb
  all_goals simp only
  · split <;> exact ⟨_, _, rfl⟩
  · split <;> exact ⟨_, _, rfl⟩
  · split <;> exact ⟨_, _, rfl⟩
  · exact ⟨_, _, rfl⟩
  · split <;> exact ⟨_, _, rfl⟩
  · exact ⟨_, _, rfl⟩
  · exact ⟨_, _, rfl⟩
  · exact ⟨_, _, rfl⟩
  · exact ⟨_, _, rfl⟩

/-! ## The receiver -/

/-- An operation of the receiver is in progress. -/
def Rx.busy : Rx T → Bool
  | .idle | .pend _ | .gone => false
  | _ => true

/-- The receiver is being dropped. -/
def Rx.inDrop : Rx T → Bool
  | .drop0 | .drop1 | .dgot _ | .drop2 | .gone => true
  | _ => false

/-- The action begins a new operation, or a new poll, of the receiver. -/
def beginsR : Act T → Bool
  | .startTryRecv | .pollRecv _ | .cancelRecv | .dropR => true
  | _ => false

def isGoR : Act T → Bool
  | .goR => true
  | _ => false

/-- critical sections of a receive that are still to come, at most -/
def rankR : Rx T → Nat
  | .poll0 _ => 4
  | .tr0 _ => 3
  | .got _ _ => 2
  | .rd _ _ _ | .empty _ => 1
  | _ => 0

theorem step_rx {n : Nat} {s s' : St T} {a : Act T} {e : List (Ev T)} (hs : step n s a = some (s', e)) (hb : beginsR a = false) (hg : isGoR a = false) : s'.rx = s.rx := by
  cases a with
  | go j => exact (goS_snd hs).2.2
  | poll j w => simp only [step] at hs; split at hs <;> cases hs; exact (pollSend_snd _ _ _ _).2
  | clone j k => simp only [step] at hs; split at hs <;> cases hs; rfl
  | dropS j => simp only [step] at hs; split at hs <;> cases hs; rfl
  | startTry j v => simp only [step] at hs; split at hs <;> cases hs; rfl
  | startSend j v => simp only [step] at hs; split at hs <;> cases hs; rfl
  | cancel j => simp only [step] at hs; split at hs <;> cases hs; rfl
  | sQuery j => simp only [step] at hs; split at hs <;> cases hs; rfl
  | rQuery => simp only [step] at hs; split at hs <;> cases hs; rfl
  | goR => cases hg
  | startTryRecv | pollRecv _ | cancelRecv | dropR => cases hb

theorem goR_rank {n : Nat} {s s' : St T} {e : List (Ev T)} (hi : Inv n s) (hs : goR n s = some (s', e)) (hd : s.rx.inDrop = false) :
    rankR s'.rx < rankR s.rx ∧ s'.rx.inDrop = false := by
  have hnb : s'.bad = false := (inv_tr hi (trans_of_step (a := .goR) hs)).s.nobad
  unfold goR at hs
  split at hs
  all_goals (rename_i hr)
  all_goals try (simp [hr, Rx.inDrop] at hd; done)
  · cases hs
  · cases hs
  · cases hs; simp [rankR, hr, Rx.inDrop]
  · split at hs <;> cases hs <;> simp [rankR, hr, Rx.inDrop]
  · split at hs <;> cases hs
    · simp [rankR, hr, Rx.inDrop]
    · cases hnb
  · cases hs; simp [rankR, hr, Rx.inDrop]
  · rename_i m
    split at hs <;> cases hs
    · simp [rankR, hr, Rx.inDrop]
    · cases m <;> simp [rankR, hr, Rx.inDrop, emptyResult]

theorem exec_cons {n : Nat} {s s2 : St T} {a : Act T} {as : List (Act T)} {tr : List (Ev T)} (h : exec n s (a :: as) = some (s2, tr)) :
    ∃ s1 e1 e2, step n s a = some (s1, e1) ∧ exec n s1 as = some (s2, e2) ∧ tr = e1 ++ e2 := by
  simp only [exec] at h
  split at h
  · cases h
  · rename_i s1 e1 h1
    split at h
    · cases h
    · rename_i s3 e2 h2
      cases h
      exact ⟨s1, e1, e2, h1, h2, rfl⟩

theorem recv_rank {n : Nat} {s s' : St T} {as : List (Act T)} {e : List (Ev T)} (hi : Inv n s) (hd : s.rx.inDrop = false) (he : exec n s as = some (s', e))
    (hb : ∀ a ∈ as, beginsR a = false) : as.countP isGoR + rankR s'.rx ≤ rankR s.rx := by
  induction as generalizing s e with
  | nil => simp only [exec, Option.some.injEq, Prod.mk.injEq] at he; obtain ⟨rfl, rfl⟩ := he; simp
  | cons a as ih =>
    obtain ⟨s1, e1, e2, h1, h2, rfl⟩ := exec_cons he
    have hi1 := inv_tr hi (trans_of_step h1)
    rw [List.countP_cons]
    cases hga : isGoR a with
    | true =>
      have : a = .goR := by cases a <;> simp_all [isGoR]
      subst this
      obtain ⟨h3, h4⟩ := goR_rank hi h1 hd
      have := ih hi1 h4 h2 fun a ha => hb a (List.mem_cons_of_mem _ ha)
      simp; omega
    | false =>
      have h3 := step_rx h1 (hb a List.mem_cons_self) hga
      have := ih hi1 (by rw [h3]; exact hd) h2 fun a ha => hb a (List.mem_cons_of_mem _ ha)
      rw [h3] at this
      simpa using this

/-- **C73** A call of `try_recv` or a poll of a `recv` future goes through at most four critical sections of its own, whatever the senders do in between, and has then ended. -/
theorem C73_receive_bounded {n : Nat} {s s' : St T} {tr e : List (Ev T)} {as : List (Act T)} (h : Reach n s tr) (hd : s.rx.inDrop = false) (he : exec n s as = some (s', e))
    (hb : ∀ a ∈ as, beginsR a = false) : as.countP isGoR ≤ 4 ∧ (s'.rx.busy = true → as.countP isGoR < 4) := by
  have hr := recv_rank (reach_inv h) hd he hb
  have h4 : rankR s.rx ≤ 4 := by cases s.rx <;> simp [rankR]
  refine ⟨by omega, fun hbusy => ?_⟩
  have hd' : s'.rx.inDrop = false := by
    clear hr h4 hbusy
    have hi := reach_inv h
    clear h
    induction as generalizing s e with
    | nil => simp only [exec, Option.some.injEq, Prod.mk.injEq] at he; obtain ⟨rfl, rfl⟩ := he; exact hd
    | cons a as ih =>
      obtain ⟨s1, e1, e2, h1, h2, rfl⟩ := exec_cons he
      refine ih ?_ h2 (fun a ha => hb a (List.mem_cons_of_mem _ ha)) (inv_tr hi (trans_of_step h1))
      cases hga : isGoR a with
      | true =>
        have : a = .goR := by cases a <;> simp_all [isGoR]
        subst this
        exact (goR_rank hi h1 hd).2
      | false => rw [step_rx h1 (hb a List.mem_cons_self) hga]; exact hd
  have : 0 < rankR s'.rx := by cases hp : s'.rx <;> simp_all [rankR, Rx.busy, Rx.inDrop]
  omega

/-- **C73** An operation of the receiver that is in progress is never blocked. -/
theorem C73_receiver_never_stuck {n : Nat} {s : St T} (hb : s.rx.busy = true) : ∃ s' e, step n s .goR = some (s', e) := by
  simp only [step, goR]
  cases h : s.rx <;> simp [h, Rx.busy] at hb
  all_goals simp only
  · exact ⟨_, _, rfl⟩
  · split <;> exact ⟨_, _, rfl⟩
  · split <;> exact ⟨_, _, rfl⟩
  · exact ⟨_, _, rfl⟩
  · split <;> exact ⟨_, _, rfl⟩
  · exact ⟨_, _, rfl⟩
  · split <;> exact ⟨_, _, rfl⟩
  · split <;> exact ⟨_, _, rfl⟩
  · split
    · split <;> exact ⟨_, _, rfl⟩
    · exact ⟨_, _, rfl⟩

/-! ## Dropping the receiver -/

/-- the slot is somewhere: free, queued, used by a sender, promised, or used by the receiver -/
def InUse (s : St T) (x : Nat) : Prop :=
  x ∈ s.free ∨ x ∈ s.ready ∨ (∃ i, (s.snd i).held = some x) ∨ (∃ i, s.sl i = some x) ∨ s.rx.held = some x

theorem held_fin (v : T) (k : Fin) : (finPc v k).held = (Pc.drop1 v k).held ∧ (Pc.drop1 v k).held = (Pc.drop0 v k).held := by
  cases k <;> exact ⟨rfl, rfl⟩

theorem inUse_tr {n : Nat} {s s' : St T} {e : List (Ev T)} {x : Nat} (hs : Tr n s s' e) (h : InUse s' x) : InUse s x := by
  apply Classical.byContradiction
  intro hn
  have h1 : x ∉ s.free := fun h => hn (.inl h)
  have h2 : x ∉ s.ready := fun h => hn (.inr (.inl h))
  have h3 : ∀ i, (s.snd i).held ≠ some x := fun i h => hn (.inr (.inr (.inl ⟨i, h⟩)))
  have h4 : ∀ i, s.sl i ≠ some x := fun i h => hn (.inr (.inr (.inr (.inl ⟨i, h⟩))))
  have h5 : s.rx.held ≠ some x := fun h => hn (.inr (.inr (.inr (.inr h))))
  clear hn
  rcases h with h | h | ⟨i, h⟩ | ⟨i, h⟩ | h
  · cases hs <;> (try simp only at h) <;> first | exact h1 h | grind [Pc.held, Rx.held]
  · cases hs <;> (try simp only at h) <;> first | exact h2 h | grind [Pc.held, Rx.held]
  · have hi := h3 i
    cases hs <;> (try simp only [set_apply] at h) <;> first | exact hi h | (split at h <;> first | exact hi h | (subst i; rename_i hpc; rw [hpc] at hi; rw [(held_fin _ _).2] at h; exact hi h) | grind [Pc.held, Rx.held, held_fin])
  · have hi := h4 i
    cases hs <;> (try simp only [set_apply] at h) <;> first | exact hi h | (split at h <;> first | exact hi h | grind [Pc.held, Rx.held, held_fin])
  · cases hs <;> (try simp only at h) <;> first | exact h5 h | grind [Pc.held, Rx.held, emptyResult]

open Classical in
/-- number of slots that have been drained -/
noncomputable def lostCount (n : Nat) (s : St T) : Nat := (List.range n).countP fun x => decide (¬ InUse s x)

theorem countP_le_of {α : Type} {p q : α → Bool} : ∀ (l : List α), (∀ x ∈ l, p x = true → q x = true) → l.countP p ≤ l.countP q := by
  intro l h
  exact List.countP_mono_left h

theorem countP_lt_of {α : Type} {p q : α → Bool} : ∀ (l : List α), (∀ x ∈ l, p x = true → q x = true) → (∃ y ∈ l, q y = true ∧ p y = false) → l.countP p < l.countP q := by
  intro l
  induction l with
  | nil => rintro - ⟨y, hy, -⟩; cases hy
  | cons a l ih =>
    intro h hy
    have hle := countP_le_of l fun x hx => h x (List.mem_cons_of_mem _ hx)
    rw [List.countP_cons, List.countP_cons]
    obtain ⟨y, hy, hq, hp⟩ := hy
    rcases List.mem_cons.mp hy with rfl | hy
    · simp [hq, hp]; omega
    · have := ih (fun x hx => h x (List.mem_cons_of_mem _ hx)) ⟨y, hy, hq, hp⟩
      have ha := h a List.mem_cons_self
      cases hpa : p a <;> cases hqa : q a <;> simp_all <;> omega

theorem lost_le {n : Nat} (s : St T) : lostCount n s ≤ n := by
  unfold lostCount
  have := List.countP_le_length (p := fun x => by classical exact decide (¬ InUse s x)) (l := List.range n)
  simpa using this

theorem lost_mono {n : Nat} {s s' : St T} {e : List (Ev T)} (hs : Tr n s s' e) : lostCount n s ≤ lostCount n s' := by
  unfold lostCount
  apply countP_le_of
  intro x _ h
  simp only [decide_eq_true_eq] at h ⊢
  exact fun hu => h (inUse_tr hs hu)

theorem lost_dgot {n : Nat} {s s' : St T} {e : List (Ev T)} {x : Nat} (hi : Inv n s) (hr : s.rx = .dgot x) (hs : goR n s = some (s', e)) : lostCount n s < lostCount n s' := by
  obtain ⟨own, ho⟩ := hi.o
  have hx := (ho.rx x).mp (by simp [hr, Rx.held])
  have htr : Tr n s s' e := trans_of_step (a := .goR) hs
  unfold lostCount
  apply countP_lt_of
  · intro x _ h
    simp only [decide_eq_true_eq] at h ⊢
    exact fun hu => h (inUse_tr htr hu)
  · refine ⟨x, List.mem_range.mpr hx.1, ?_, ?_⟩
    · simp only [decide_eq_true_eq]
      have hnb : s'.bad = false := (inv_tr hi htr).s.nobad
      simp only [goR, hr] at hs
      split at hs <;> cases hs
      · rintro (h | h | ⟨i, h⟩ | ⟨i, h⟩ | h)
        · have := (ho.free x).mp h; rw [this.2] at hx; cases hx.2
        · have := (ho.ready x).mp h; rw [this.2] at hx; cases hx.2
        · have := (ho.snd i x).mp h; rw [this.2] at hx; cases hx.2
        · have := (ho.sl i x).mp h; rw [this.2] at hx; cases hx.2
        · simp [Rx.held] at h
      · cases hnb
    · simp only [decide_eq_false_iff_not, Classical.not_not]
      exact .inr (.inr (.inr (.inr (by simp [hr, Rx.held]))))

/-- critical sections of `Receiver::drop` that are still to come after it has closed the channel, at most -/
noncomputable def rankD (n : Nat) (s : St T) : Nat :=
  match s.rx with
  | .drop1 => 2 * (n - lostCount n s) + s.wq.length + 2
  | .dgot _ => 2 * (n - lostCount n s) + s.wq.length + 1
  | .drop2 => s.wq.length + 1
  | _ => 0

theorem wq_tr {n : Nat} {s s' : St T} {e : List (Ev T)} (hs : Tr n s s' e) (hd : s.rcvDropped = true) : s'.wq.length ≤ s.wq.length ∧ s'.rcvDropped = true := by
  cases hs <;> first
    | exact ⟨Nat.le_refl _, hd⟩
    | exact ⟨List.length_erase_le, hd⟩
    | (simp_all; done)

theorem rankD_goR {n : Nat} {s s' : St T} {e : List (Ev T)} (hi : Inv n s) (hd : s.rcvDropped = true) (hs : goR n s = some (s', e)) : rankD n s' < rankD n s := by
  have htr : Tr n s s' e := trans_of_step (a := .goR) hs
  have hnb : s'.bad = false := (inv_tr hi htr).s.nobad
  have hdr := hi.d.iff
  rw [hd] at hdr
  have hm := lost_mono htr
  have hle := lost_le (n := n) s'
  have hlt := fun x hr => lost_dgot (x := x) hi hr hs
  cases hr : s.rx <;> simp [hr, Rx.dropping] at hdr
  · simp only [goR, hr] at hs
    split at hs <;> cases hs <;> simp only [rankD, hr] <;> omega
  · rename_i x
    have := hlt x hr
    simp only [goR, hr] at hs
    split at hs <;> cases hs
    · simp only [rankD, hr]; omega
    · cases hnb
  · simp only [goR, hr] at hs
    split at hs
    · rename_i hq
      split at hs <;> cases hs
      · simp [rankD, hr, hq]
      · cases hnb
    · cases hs; simp [rankD, hr]
  · simp [goR, hr] at hs

theorem rankD_other {n : Nat} {s s' : St T} {a : Act T} {e : List (Ev T)} (hd : s.rcvDropped = true) (hs : step n s a = some (s', e)) (hrx : s'.rx = s.rx) : rankD n s' ≤ rankD n s := by
  have htr := trans_of_step hs
  have h1 := lost_mono htr
  have h2 := (wq_tr htr hd).1
  unfold rankD
  rw [hrx]
  split <;> omega

/-- **C73** Dropping the receiver terminates: after it has closed the channel it goes through at most `2 * capacity + number of waiting senders + 2` further critical sections, whatever the senders do in between (in particular sends that were under way cannot keep it
busy for ever), and has then ended. -/
theorem C73_receiver_drop_bounded {n : Nat} {s s' : St T} {tr e : List (Ev T)} {as : List (Act T)} (h : Reach n s tr) (hd : s.rcvDropped = true) (he : exec n s as = some (s', e)) :
    as.countP isGoR ≤ 2 * n + s.wq.length + 2 ∧ (s'.rx.busy = true → as.countP isGoR < 2 * n + s.wq.length + 2) := by
  have key : ∀ (as : List (Act T)) (s : St T) (e : List (Ev T)), Inv n s → s.rcvDropped = true → exec n s as = some (s', e) →
      as.countP isGoR + rankD n s' ≤ rankD n s ∧ s'.rcvDropped = true ∧ Inv n s' := by
    intro as
    induction as with
    | nil => intro s e hi hd he; simp only [exec, Option.some.injEq, Prod.mk.injEq] at he; obtain ⟨rfl, rfl⟩ := he; exact ⟨by simp, hd, hi⟩
    | cons a as ih =>
      intro s e hi hd he
      obtain ⟨s1, e1, e2, h1, h2, rfl⟩ := exec_cons he
      have htr := trans_of_step h1
      obtain ⟨h3, h4⟩ := ih s1 e2 (inv_tr hi htr) (wq_tr htr hd).2 h2
      refine ⟨?_, h4⟩
      rw [List.countP_cons]
      cases hga : isGoR a with
      | true =>
        have : a = .goR := by cases a <;> simp_all [isGoR]
        subst this
        have := rankD_goR hi hd h1
        simp; omega
      | false =>
        have hrx : s1.rx = s.rx := by
          have hdr := hi.d.iff
          rw [hd] at hdr
          refine step_rx h1 ?_ hga
          cases a with
          | startTryRecv => simp only [step] at h1; split at h1 <;> first | cases h1 | skip
                            rename_i hr; rw [hr] at hdr; simp [Rx.dropping] at hdr
          | pollRecv w =>
            simp only [step] at h1; split at h1 <;> first | (cases h1; done) | skip
            all_goals (rename_i hr; rw [hr] at hdr; simp [Rx.dropping] at hdr)
          | cancelRecv =>
            simp only [step] at h1; split at h1 <;> first | (cases h1; done) | skip
            rename_i hr; rw [hr] at hdr; simp [Rx.dropping] at hdr
          | dropR =>
            simp only [step] at h1; split at h1 <;> first | (cases h1; done) | skip
            rename_i hr; rw [hr] at hdr; simp [Rx.dropping] at hdr
          | _ => rfl
        have := rankD_other hd h1 hrx
        simp; omega
  obtain ⟨h1, h2, h3⟩ := key as s e (reach_inv h) hd he
  have hle : rankD n s ≤ 2 * n + s.wq.length + 2 := by
    unfold rankD
    have := lost_le (n := n) s
    split <;> omega
  refine ⟨by omega, fun hb => ?_⟩
  have : 0 < rankD n s' := by
    have hdr := h3.d.iff
    rw [h2] at hdr
    cases hp : s'.rx <;> simp only [hp, Rx.dropping, Rx.busy, Bool.false_eq_true] at hdr hb <;> simp [rankD, hp]
    all_goals simp_all
  omega

/-! ## What a receive returns -/

theorem num_zero {n : Nat} {s : St T} (hI : Inv n s) : s.num = 0 ↔ ∀ i, ¬ Alive s i := by
  obtain ⟨live, hl⟩ := hI.nn
  rw [← hl.len, List.length_eq_zero_iff]
  have hc : ∀ i, (s.snd i).counted = true ↔ Alive s i := by
    intro i; unfold Alive; cases s.snd i <;> simp [Pc.counted]
  constructor
  · rintro rfl i ha
    have := (hl.mem i).mpr ((hc i).mpr ha)
    cases this
  · intro h
    cases live with
    | nil => rfl
    | cons j l => exact absurd ((hc j).mp ((hl.mem j).mp List.mem_cons_self)) (h j)

/-- **C73** A poll of `recv` with no other operation in between returns the oldest queued value if there is one; otherwise it returns `NoSender` if all senders have been dropped, else `Pending` (and the waker is registered). -/
theorem C73_recv_result {n : Nat} {s : St T} {tr : List (Ev T)} (w : Nat) (h : Reach n s tr) (hr : s.rx = .idle ∨ ∃ w', s.rx = .pend w') :
    ∃ as s' e, (∀ a ∈ as, a = .goR) ∧ as.length ≤ 4 ∧ exec n s (.pollRecv w :: as) = some (s', e) ∧
      (match queued s with
       | v :: vs => Ev.recvd v ∈ e ∧ queued s' = vs ∧ s'.rx = .idle
       | [] => queued s' = [] ∧ ((∀ i, ¬ Alive s i) → Ev.recvNoSender ∈ e ∧ s'.rx = .idle) ∧ ((∃ i, Alive s i) → Ev.recvPending ∈ e ∧ s'.rx = .pend w ∧ s'.rwk = some w)) := by
  have hI := reach_inv h
  have hnum := num_zero hI
  obtain ⟨own, ho⟩ := hI.o
  have h0 : step n s (.pollRecv w) = some ({ s with rx := .poll0 w }, []) := by
    rcases hr with hr | ⟨w', hr⟩ <;> simp [step, hr]
  have hreg : ∃ e1, (register { s with rx := .poll0 w } w) = ({ s with rx := .poll0 w, rwk := some w }, e1) := by
    unfold register
    cases hw : s.rwk with
    | none => simp
    | some w2 => by_cases hww : w2 = w <;> simp [hww, hw]
  obtain ⟨e1, hreg⟩ := hreg
  have h1 : step n { s with rx := .poll0 w } .goR = some ({ s with rx := .tr0 (some w), rwk := some w }, e1) := by
    simp only [step, goR, hreg]
  cases hq : s.ready with
  | nil =>
    have hqd : queued s = [] := by simp [queued, hq]
    have h2 : step n { s with rx := .tr0 (some w), rwk := some w } .goR = some ({ s with rx := .empty (some w), rwk := some w }, []) := by
      simp [step, goR, hq]
    by_cases hn : s.num = 0
    · refine ⟨[.goR, .goR, .goR], { s with rx := .idle, rwk := some w }, e1 ++ [.recvNoSender], by simp, by simp, ?_, ?_⟩
      · simp only [exec, h0, h1, h2]; simp [step, goR, hn]
      · rw [hqd]
        refine ⟨by simp [queued, hq], fun _ => by simp, fun ⟨i, hi⟩ => absurd hi (hnum.mp hn i)⟩
    · refine ⟨[.goR, .goR, .goR], { s with rx := .pend w, rwk := some w }, e1 ++ [.recvPending], by simp, by simp, ?_, ?_⟩
      · simp only [exec, h0, h1, h2]; simp [step, goR, hn, emptyResult]
      · rw [hqd]
        refine ⟨by simp [queued, hq], fun hna => absurd (hnum.mpr hna) hn, fun _ => by simp⟩
  | cons x q =>
    obtain ⟨v, hv⟩ := hI.s.cready x (by rw [hq]; exact List.mem_cons_self)
    have hqd : queued s = v :: q.filterMap s.slots := by simp [queued, hq, hv]
    have hxq : x ∉ q := by have := ho.readyNd; rw [hq] at this; exact (List.nodup_cons.mp this).1
    have hcong : q.filterMap (set s.slots x none) = q.filterMap s.slots := by
      apply filterMap_congr'
      intro y hy
      exact set_ne _ _ (by rintro rfl; exact hxq hy)
    have h2 : step n { s with rx := .tr0 (some w), rwk := some w } .goR = some ({ s with rx := .got (some w) x, ready := q, rwk := some w }, []) := by
      simp [step, goR, hq]
    have h3 : step n { s with rx := .got (some w) x, ready := q, rwk := some w } .goR =
        some ({ s with rx := .rd (some w) x v, ready := q, rwk := some w, slots := set s.slots x none }, []) := by
      simp [step, goR, hv]
    let s3 : St T := { s with rx := .rd (some w) x v, ready := q, rwk := some w, slots := set s.slots x none }
    have h4 : step n s3 .goR = some ({ (returnFreeSlot n s3 x).1 with rx := .idle }, (returnFreeSlot n s3 x).2 ++ [.recvd v]) := by
      simp [step, goR, s3]
    have hkeep : (returnFreeSlot n s3 x).1.ready = q ∧ (returnFreeSlot n s3 x).1.slots = set s.slots x none := by
      unfold returnFreeSlot
      split
      · split <;> exact ⟨rfl, rfl⟩
      · exact ⟨rfl, rfl⟩
    refine ⟨[.goR, .goR, .goR, .goR], { (returnFreeSlot n s3 x).1 with rx := .idle }, e1 ++ ((returnFreeSlot n s3 x).2 ++ [.recvd v]), by simp, by simp, ?_, ?_⟩
    · simp only [exec, h0, h1, h2, h3]; rw [h4]; simp
    · rw [hqd]
      exact ⟨by simp, by simp only [queued, hkeep]; exact hcong, rfl⟩

/-- Non-vacuity: receiver polled before and after a send of two values; dropped while values are queued and a sender is in the middle of a send. -/
example : (exec 2 (init 2) [.pollRecv 7, .goR, .goR, .goR, .startTry 0 'x', .go 0, .go 0, .go 0, .go 0, .go 0, .go 0, .pollRecv 7, .goR, .goR, .goR, .goR]).map
    (·.2) = some [.reg 7, .recvPending, .start 0 'x', .enq 0 'x', .wokeR 7, .sendOk 0, .reg 7, .recvd 'x'] := by decide

example : (exec 2 (init 2) [.startTry 0 'x', .go 0, .go 0, .go 0, .go 0, .go 0, .go 0, .startTry 0 'y', .go 0, .go 0, .go 0, .go 0, .dropR, .goR, .goR, .goR, .go 0, .goR, .goR, .goR, .goR]).map
    (fun r => (r.2, r.1.rx)) = some ([.start 0 'x', .enq 0 'x', .sendOk 0, .start 0 'y', .discarded 'x', .enq 0 'y', .discarded 'y'], .gone) := by decide

end Verif.Channel
