import Verif.Arbiter.Model

/-! # C15–C17 -/

namespace Verif.Arbiter

/-! ## Vocabulary -/

/-- From the history: the clients that wait, in the order in which they started to. -/
def waitingList : List Nat → List Ev → List Nat
  | q, [] => q
  | q, .waiting i :: tr => waitingList (q ++ [i]) tr
  | q, .handed i _ :: tr => waitingList (q.erase i) tr
  | q, .cancelled i :: tr => waitingList (q.erase i) tr
  | q, _ :: tr => waitingList q tr

/-- From the history: the client the arbiter has been handed to but which has not been polled since. -/
def handedTo : Option Nat → List Ev → Option Nat
  | h, [] => h
  | _, .handed i _ :: tr => handedTo (some i) tr
  | h, .acquired i :: tr => handedTo (if h = some i then none else h) tr
  | h, .cancelled i :: tr => handedTo (if h = some i then none else h) tr
  | h, _ :: tr => handedTo h tr

/-- The client has the arbiter: holds a token, is about to create one, or was handed the arbiter while waiting. -/
def Holds (s : St) (i : Nat) : Prop :=
  s.pc i = .token ∨ s.pc i = .got ∨ (s.pc i = .fut ∧ ∃ l, s.lk i = some l ∧ l.popped = true)

/-! ## Invariant -/

@[simp, grind =] theorem set_self {β : Type} (f : Nat → β) (i : Nat) (x : β) : set f i x i = x := by simp [set]
@[grind =] theorem set_apply {β : Type} (f : Nat → β) (i : Nat) (x : β) (j : Nat) :
    set f i x j = if j = i then x else f j := rfl

/-- Owner number encoding used by the invariant: `own = some i` iff client `i` holds the arbiter. -/
structure Inv (s : St) (own : Option Nat) : Prop where
  nodup : s.wq.Nodup
  mem : ∀ i, i ∈ s.wq ↔ s.pc i = .fut ∧ ∃ l, s.lk i = some l ∧ l.popped = false
  wtaken : s.wq ≠ [] → s.taken = true
  otaken : own ≠ none → s.taken = true
  own : ∀ i, own = some i ↔ s.pc i = .token ∨ s.pc i = .got ∨ (s.pc i = .fut ∧ ∃ l, s.lk i = some l ∧ l.popped = true)

theorem inv_init : Inv init none := by constructor <;> simp [init]

theorem erase_mem_iff {l : List Nat} (h : l.Nodup) (a b : Nat) : a ∈ l.erase b ↔ a ≠ b ∧ a ∈ l := h.mem_erase_iff

/-! ## Case analysis of the step function (proof device) -/

inductive Tr (s : St) : Act → St → List Ev → Prop where
  | access (i) (hp : s.pc i = .none) : Tr s (.access i) { s with pc := set s.pc i .fut, lk := set s.lk i none } []
  | pollFree (i w) (hp : s.pc i = .fut) (hq : s.wq = []) (ht : s.taken = false) :
    Tr s (.poll i w) { s with taken := true, pc := set s.pc i .got } [.acquired i]
  | pollGrant (i w l) (hp : s.pc i = .fut) (hc : ¬ (s.wq = [] ∧ s.taken = false)) (hl : s.lk i = some l)
      (hpop : l.popped = true) : Tr s (.poll i w) { s with pc := set s.pc i .got } [.acquired i]
  | pollStay (i w l) (hp : s.pc i = .fut) (hc : ¬ (s.wq = [] ∧ s.taken = false)) (hl : s.lk i = some l)
      (hpop : l.popped = false) : Tr s (.poll i w) s []
  | pollWait (i w) (hp : s.pc i = .fut) (hc : ¬ (s.wq = [] ∧ s.taken = false)) (hl : s.lk i = none) :
    Tr s (.poll i w) { s with lk := set s.lk i (some { w := w, popped := false }), wq := s.wq ++ [i] } [.waiting i]
  | fin (i) (hp : s.pc i = .got) :
    Tr s (.fin i) { s with wq := s.wq.erase i, lk := set s.lk i none, pc := set s.pc i .token } []
  | cancel (i) (hp : s.pc i = .fut) :
    Tr s (.cancel i) { s with wq := s.wq.erase i, lk := set s.lk i none, pc := set s.pc i .none } [.cancelled i]
  | tryOk (i) (hp : s.pc i = .none) (hq : s.wq = []) (ht : s.taken = false) :
    Tr s (.tryAccess i) { s with taken := true, pc := set s.pc i .token } [.acquired i]
  | tryFail (i) (hp : s.pc i = .none) (hc : ¬ (s.wq = [] ∧ s.taken = false)) : Tr s (.tryAccess i) s [.tryFailed i]
  | dropFree (i) (hp : s.pc i = .token) (hq : s.wq = []) :
    Tr s (.dropTok i) { s with taken := false, pc := set s.pc i .none } [.released i]
  | dropHand (i j q l) (hp : s.pc i = .token) (hq : s.wq = j :: q) (hl : s.lk j = some l) :
    Tr s (.dropTok i) { s with wq := q, lk := set s.lk j (some { l with popped := true }), pc := set s.pc i .none }
      [.released i, .handed j l.w]

theorem tr_of_step {s s' : St} {a : Act} {e : List Ev} (hs : step s a = some (s', e)) : Tr s a s' e := by
  cases a with
  | access i => simp only [step] at hs; split at hs <;> cases hs; exact .access i (by assumption)
  | poll i w =>
    simp only [step] at hs; split at hs
    · rename_i hp
      split at hs
      · rename_i hc; cases hs; exact .pollFree i w hp hc.1 hc.2
      · rename_i hc
        split at hs
        · rename_i l hl
          split at hs
          · rename_i h; cases hs; exact .pollGrant i w l hp hc hl h
          · rename_i h; cases hs; exact .pollStay i w l hp hc hl (by simpa using h)
        · rename_i hl; cases hs; exact .pollWait i w hp hc hl
    · cases hs
  | fin i => simp only [step] at hs; split at hs <;> cases hs; exact .fin i (by assumption)
  | cancel i => simp only [step] at hs; split at hs <;> cases hs; exact .cancel i (by assumption)
  | tryAccess i =>
    simp only [step] at hs; split at hs
    · rename_i hp
      split at hs
      · rename_i hc; cases hs; exact .tryOk i hp hc.1 hc.2
      · rename_i hc; cases hs; exact .tryFail i hp hc
    · cases hs
  | dropTok i =>
    simp only [step] at hs; split at hs
    · rename_i hp
      split at hs
      · rename_i hq; cases hs; exact .dropFree i hp hq
      · rename_i j q hq
        split at hs
        · rename_i l hl; cases hs; exact .dropHand i j q l hp hq hl
        · cases hs
    · cases hs

theorem inv_step {s s' : St} {own : Option Nat} {a : Act} {e : List Ev} (h : Inv s own) (hs : step s a = some (s', e)) :
    ∃ own', Inv s' own' := by
  obtain ⟨h1, h2, h3, h4, h5⟩ := h
  have hn : s.taken = false → own = none := by
    intro hc
    cases own with
    | none => rfl
    | some k => have := h4 (by simp); rw [hc] at this; cases this
  have he := erase_mem_iff h1
  cases tr_of_step hs with
  | access i hp =>
    refine ⟨own, h1, ?_, h3, h4, ?_⟩
    · intro j; have := h2 j; have := h2 i; by_cases hj : j = i <;> grind
    · intro j; have := h5 j; by_cases hj : j = i <;> grind
  | pollFree i w hp hq ht =>
    have := hn ht
    refine ⟨some i, h1, ?_, by simp, by simp, ?_⟩
    · intro j; have := h2 j; rw [hq] at this ⊢; by_cases hj : j = i <;> grind
    · intro j; have := h5 j; by_cases hj : j = i <;> grind
  | pollGrant i w l hp hc hl hpop =>
    refine ⟨own, h1, ?_, h3, h4, ?_⟩
    · intro j; have := h2 j; by_cases hj : j = i <;> grind
    · intro j; have := h5 j; by_cases hj : j = i <;> grind
  | pollStay => exact ⟨own, h1, h2, h3, h4, h5⟩
  | pollWait i w hp hc hl =>
    have hni : i ∉ s.wq := by have := h2 i; grind
    refine ⟨own, ?_, ?_, ?_, h4, ?_⟩
    · rw [List.nodup_append]; refine ⟨h1, by simp, ?_⟩
      intro x hx y hy; simp at hy; subst hy; rintro rfl; exact hni hx
    · intro j; have := h2 j; by_cases hj : j = i <;> simp <;> grind
    · intro _
      by_cases hq : s.wq = []
      · simpa [hq] using hc
      · exact h3 hq
    · intro j; have := h5 j; by_cases hj : j = i <;> grind
  | fin i hp =>
    have hni : i ∉ s.wq := by have := h2 i; grind
    refine ⟨own, h1.erase i, ?_, ?_, h4, ?_⟩
    · intro j; have := h2 j; by_cases hj : j = i <;> grind
    · rw [List.erase_of_not_mem hni]; exact h3
    · intro j; have := h5 j; by_cases hj : j = i <;> grind
  | cancel i hp =>
    refine ⟨if own = some i then none else own, h1.erase i, ?_, ?_, ?_, ?_⟩
    · intro j; have := h2 j; by_cases hj : j = i <;> grind
    · intro hq; apply h3; rintro hn; simp [hn] at hq
    · intro ho; apply h4; grind
    · intro j; have := h5 j; have := h5 i; by_cases hj : j = i <;> grind
  | tryOk i hp hq ht =>
    have := hn ht
    refine ⟨some i, h1, ?_, by simp, by simp, ?_⟩
    · intro j; have := h2 j; rw [hq] at this ⊢; by_cases hj : j = i <;> grind
    · intro j; have := h5 j; by_cases hj : j = i <;> grind
  | tryFail => exact ⟨own, h1, h2, h3, h4, h5⟩
  | dropFree i hp hq =>
    have ho : own = some i := (h5 i).2 (.inl hp)
    refine ⟨none, by simp [hq], ?_, by simp [hq], by simp, ?_⟩
    · intro j; have := h2 j; by_cases hj : j = i <;> grind
    · intro j; have := h5 j; by_cases hj : j = i <;> grind
  | dropHand i j q l hp hq hl =>
    have ho : own = some i := (h5 i).2 (.inl hp)
    have hj := (h2 j).1 (by simp [hq])
    rw [hq] at h1 h2
    have hnd := List.nodup_cons.1 h1
    have ht := h3 (by simp [hq])
    refine ⟨some j, hnd.2, ?_, fun _ => ht, fun _ => ht, ?_⟩
    · intro k; have := h2 k; by_cases hk : k = j <;> by_cases hki : k = i <;> grind
    · intro k; have := h5 k; by_cases hk : k = j <;> by_cases hki : k = i <;> grind

theorem exec_induct {P : St → List Ev → Prop}
    (hstep : ∀ s tr a s' e, P s tr → step s a = some (s', e) → P s' (tr ++ e)) :
    ∀ (as : List Act) (s : St) (tr : List Ev) (s' : St) (es : List Ev), P s tr →
      exec s as = some (s', es) → P s' (tr ++ es)
  | [], s, tr, s', es, h, he => by cases he; simpa using h
  | a :: as, s, tr, s', es, h, he => by
    simp only [exec] at he
    split at he
    · cases he
    · rename_i s1 e hs
      split at he
      · cases he
      · rename_i s2 es' hs2
        cases he
        have := exec_induct hstep as s1 (tr ++ e) _ es' (hstep _ _ _ _ _ h hs) hs2
        simpa using this

theorem waitingList_append (tr tr' : List Ev) : ∀ q, waitingList q (tr ++ tr') = waitingList (waitingList q tr) tr' := by
  induction tr with
  | nil => intro q; rfl
  | cons x tr ih => intro q; cases x <;> simp [waitingList, ih]

theorem handedTo_append (tr tr' : List Ev) : ∀ q, handedTo q (tr ++ tr') = handedTo (handedTo q tr) tr' := by
  induction tr with
  | nil => intro q; rfl
  | cons x tr ih => intro q; cases x <;> simp [handedTo, ih]

/-- The full invariant with the history. -/
structure InvH (s : St) (tr : List Ev) : Prop where
  inv : ∃ own, Inv s own
  wq : waitingList [] tr = s.wq
  handed : ∀ i, handedTo none tr = some i ↔ s.pc i = .fut ∧ ∃ l, s.lk i = some l ∧ l.popped = true

theorem invH_step {s s' : St} {a : Act} {tr e : List Ev} (h : InvH s tr) (hs : step s a = some (s', e)) :
    InvH s' (tr ++ e) := by
  obtain ⟨⟨own, hI⟩, hw, hh⟩ := h
  have hfree : s.taken = false → handedTo none tr = none := by
    intro hc
    cases hx : handedTo none tr with
    | none => rfl
    | some k =>
      have := (hI.own k).2 (.inr (.inr ((hh k).1 hx)))
      have := hI.otaken (by simp [this]); rw [hc] at this; cases this
  refine ⟨inv_step hI hs, ?_, ?_⟩
  · rw [waitingList_append, hw]
    cases tr_of_step hs with
    | fin i hp =>
      have hni : i ∉ s.wq := by have := hI.mem i; grind
      simp [waitingList, List.erase_of_not_mem hni]
    | dropHand i j q l hp hq hl => simp [waitingList, hq]
    | _ => rfl
  · intro i
    rw [handedTo_append]
    have hown := hI.own
    have hmem := hI.mem
    have hi := hh i
    cases tr_of_step hs with
    | pollFree k w hp hq ht => have := hfree ht; simp only [handedTo, this]; grind
    | tryOk k hp hq ht => have := hfree ht; simp only [handedTo, this]; grind
    | pollStay => simpa [handedTo] using hi
    | tryFail => simpa [handedTo] using hi
    | dropHand k j q l hp hq hl =>
      have ho : own = some k := (hown k).2 (.inl hp)
      have hj := (hmem j).1 (by simp [hq])
      have h5 := hown i
      simp only [handedTo]; grind
    | dropFree k hp hq => simp only [handedTo]; grind
    | access k hp => simp only [handedTo]; grind
    | pollGrant k w l hp hc hl hpop => have hk := hh k; simp only [handedTo]; grind
    | pollWait k w hp hc hl => simp only [handedTo]; grind
    | fin k hp => simp only [handedTo]; grind
    | cancel k hp => have hk := hh k; simp only [handedTo]; grind

theorem reach_inv {s : St} {tr : List Ev} (h : Reach s tr) : InvH s tr := by
  obtain ⟨as, he⟩ := h
  have := exec_induct (P := InvH) (fun s tr a s' e h hs => invH_step h hs) as init [] s tr
    ⟨⟨none, inv_init⟩, rfl, by simp [handedTo, init]⟩ he
  simpa using this

theorem holds_unique {s : St} {tr : List Ev} (h : Reach s tr) {i j : Nat} (hi : Holds s i) (hj : Holds s j) : i = j := by
  obtain ⟨own, hI⟩ := (reach_inv h).inv
  have h1 := (hI.own i).2 hi
  have h2 := (hI.own j).2 hj
  rw [h1] at h2; cases h2; rfl

/-! ## C15 -/

/-- **C15** At any time at most one `ExclusiveAccess` token exists. -/
theorem C15_at_most_one_token {s : St} {tr : List Ev} (h : Reach s tr) {i j : Nat} (hi : s.pc i = .token)
    (hj : s.pc j = .token) : i = j := holds_unique h (.inl hi) (.inl hj)

/-- **C15** While a token exists no access can succeed: neither an `access()` nor a `try_access()`, nor can one be about to. -/
theorem C15_no_acquire_while_token {s s' : St} {tr e : List Ev} {a : Act} {i j : Nat} (h : Reach s tr)
    (hi : s.pc i = .token) (hs : step s a = some (s', e)) : Ev.acquired j ∉ e := by
  intro hm
  have huniq : ∀ k, Holds s k → k = i := fun k hk => holds_unique h hk (.inl hi)
  obtain ⟨own, hI⟩ := (reach_inv h).inv
  have ht : s.taken = true := hI.otaken (by rw [(hI.own i).2 (.inl hi)]; simp)
  cases tr_of_step hs with
  | pollFree k w hp hq ht' => rw [ht] at ht'; cases ht'
  | tryOk k hp hq ht' => rw [ht] at ht'; cases ht'
  | pollGrant k w l hp hc hl hpop =>
    have := huniq k (.inr (.inr ⟨hp, l, hl, hpop⟩)); subst this; rw [hi] at hp; cases hp
  | _ => simp at hm

/-- Non-vacuity: client 0 has the token, 1 and 2 wait, 3 tries in vain, 0 releases, 1 gets it. -/
def demo : List Act := [.tryAccess 0, .access 1, .poll 1 5, .access 2, .poll 2 6, .tryAccess 3, .dropTok 0, .tryAccess 3, .poll 1 5, .fin 1]
example : (exec init demo).map (fun r => (r.1.pc 0, r.1.pc 1, r.1.wq, r.2)) = some (.none, .token, [2],
    [.acquired 0, .waiting 1, .waiting 2, .tryFailed 3, .released 0, .handed 1 5, .tryFailed 3, .acquired 1]) := by decide

/-! ## C16 -/

/-- **C16** Releasing the arbiter while clients wait hands it to the one that has waited longest and wakes it. -/
theorem C16_handover_fifo {s s' : St} {tr e : List Ev} {a : Act} {j w : Nat} (h : Reach s tr)
    (hs : step s a = some (s', e)) (hm : Ev.handed j w ∈ e) : (waitingList [] tr).head? = some j := by
  rw [(reach_inv h).wq]
  cases tr_of_step hs with
  | dropHand i k q l hp hq hl => simp at hm; simp [hm.1, hq]
  | _ => simp at hm

/-- **C16** No overtaking: an access (`access()` or `try_access()`) succeeds only if the arbiter has been handed to exactly this
client while it waited, or nobody waits and the arbiter has not been handed to anybody. -/
theorem C16_no_overtaking {s s' : St} {tr e : List Ev} {a : Act} {j : Nat} (h : Reach s tr)
    (hs : step s a = some (s', e)) (hm : Ev.acquired j ∈ e) :
    handedTo none tr = some j ∨ (waitingList [] tr = [] ∧ handedTo none tr = none) := by
  have hR := reach_inv h
  obtain ⟨own, hI⟩ := hR.inv
  rw [hR.wq]
  have hfree : s.taken = false → handedTo none tr = none := by
    intro hc
    cases hx : handedTo none tr with
    | none => rfl
    | some k =>
      have := (hI.own k).2 (.inr (.inr ((hR.handed k).1 hx)))
      have := hI.otaken (by simp [this]); rw [hc] at this; cases this
  cases tr_of_step hs with
  | pollFree k w hp hq ht => exact .inr ⟨hq, hfree ht⟩
  | tryOk k hp hq ht => exact .inr ⟨hq, hfree ht⟩
  | pollGrant k w l hp hc hl hpop => simp at hm; subst hm; exact .inl ((hR.handed j).2 ⟨hp, l, hl, hpop⟩)
  | _ => simp at hm

/-- **C16** A waiting client is overtaken by nobody: its position in the order only improves, until it is handed the arbiter or
gives up; other clients that start to wait are placed behind it. -/
theorem C16_waiting_order_kept {s s' : St} {tr e : List Ev} {a : Act} (h : Reach s tr) (hs : step s a = some (s', e)) :
    waitingList [] (tr ++ e) = waitingList [] tr ∨ (∃ i, waitingList [] (tr ++ e) = waitingList [] tr ++ [i] ∧ Ev.waiting i ∈ e) ∨
    (∃ i, waitingList [] (tr ++ e) = (waitingList [] tr).erase i ∧ (Ev.cancelled i ∈ e ∨ ∃ w, Ev.handed i w ∈ e)) := by
  have hR := reach_inv h
  rw [waitingList_append]
  cases tr_of_step hs with
  | pollWait i w hp hc hl => exact .inr (.inl ⟨i, rfl, by simp⟩)
  | cancel i hp => exact .inr (.inr ⟨i, rfl, .inl (by simp)⟩)
  | dropHand i j q l hp hq hl => exact .inr (.inr ⟨j, rfl, .inr ⟨l.w, by simp⟩⟩)
  | _ => exact .inl rfl

/-! ## C17

Full statement (false for this code): whenever no token exists (and none is being created), the arbiter is free (`try_access` succeeds)
or has been handed to a waiting access that has been woken and obtains a token when polled. -/

/-- `try_access` by a new client would succeed. -/
def Free (s : St) : Prop := ∀ i, s.pc i = .none → ∃ s' , step s (.tryAccess i) = some (s', [.acquired i])

/-- The arbiter has been handed to waiting client `i`, which was woken, and whose next poll gives it the token. -/
def HandedOver (s : St) (tr : List Ev) (i : Nat) : Prop :=
  (∃ w, Ev.handed i w ∈ tr) ∧ ∀ w, ∃ s1 s2, step s (.poll i w) = some (s1, [.acquired i]) ∧ step s1 (.fin i) = some (s2, []) ∧
    s2.pc i = .token

/-- The full English claim of C17. -/
def NeverStuck : Prop :=
  ∀ s tr, Reach s tr → (∀ i, s.pc i ≠ .token ∧ s.pc i ≠ .got) → Free s ∨ ∃ i, HandedOver s tr i

/-- **C17** is violated by the code: client 1 waits, is handed the arbiter, and its future is dropped before it is polled.
The `dropper` (`arbiter.rs:83-90`) only unlinks; the arbiter stays taken and nobody can ever get it again. -/
theorem C17_never_stuck_violated : ¬ NeverStuck := by
  intro h
  have hex : ∃ s tr, exec init [.tryAccess 0, .access 1, .poll 1 5, .dropTok 0, .cancel 1] = some (s, tr) ∧ s.taken = true ∧
      s.wq = [] ∧ ∀ i, s.pc i = .none := by
    refine ⟨_, _, rfl, rfl, rfl, ?_⟩
    intro i; simp only [set, init]; repeat' split
    all_goals first | rfl | simp_all
  obtain ⟨s, tr, he, ht, hq, hp⟩ := hex
  rcases h s tr ⟨_, he⟩ (fun i => by simp [hp i]) with hf | ⟨i, -, hh⟩
  · obtain ⟨s', h1⟩ := hf 0 (hp 0)
    simp [step, hp 0, hq, ht] at h1
  · obtain ⟨s1, s2, h1, -⟩ := hh 0
    simp [step, hp i] at h1

/-- How bad it is: once the arbiter is marked taken while nobody holds it, no access ever succeeds again, in any continuation. -/
theorem C17_stuck_forever_violated {s s' : St} {tr es : List Ev} {as : List Act} (h : Reach s tr) (ht : s.taken = true)
    (hno : ∀ i, ¬ Holds s i) (he : exec s as = some (s', es)) (i : Nat) : Ev.acquired i ∉ es := by
  obtain ⟨own, hI⟩ := (reach_inv h).inv
  have key := exec_induct (P := fun s es => (∃ own, Inv s own) ∧ s.taken = true ∧ (∀ i, ¬ Holds s i) ∧ ∀ i, Ev.acquired i ∉ es)
    (fun s es a s' e ⟨⟨own, hI⟩, ht, hno, hes⟩ hs => by
      refine ⟨inv_step hI hs, ?_⟩
      have hno' : ∀ i, s.pc i ≠ .token ∧ s.pc i ≠ .got ∧ ¬ (s.pc i = .fut ∧ ∃ l, s.lk i = some l ∧ l.popped = true) :=
        fun i => ⟨fun h => hno i (.inl h), fun h => hno i (.inr (.inl h)), fun h => hno i (.inr (.inr h))⟩
      unfold Holds
      cases tr_of_step hs with
      | pollFree k w hp hq ht' => rw [ht] at ht'; cases ht'
      | tryOk k hp hq ht' => rw [ht] at ht'; cases ht'
      | pollGrant k w l hp hc hl hpop => exact absurd ⟨hp, l, hl, hpop⟩ (hno' k).2.2
      | fin k hp => exact absurd hp (hno' k).2.1
      | dropFree k hp hq => exact absurd hp (hno' k).1
      | dropHand k j q l hp hq hl => exact absurd hp (hno' k).1
      | pollStay => exact ⟨ht, hno, by simpa using hes⟩
      | tryFail => exact ⟨ht, hno, by simpa using hes⟩
      | access k hp => refine ⟨ht, ?_, by simpa using hes⟩; intro i; have := hno' i; grind
      | pollWait k w hp hc hl => refine ⟨ht, ?_, by simpa using hes⟩; intro i; have := hno' i; grind
      | cancel k hp => refine ⟨ht, ?_, by simpa using hes⟩; intro i; have := hno' i; grind)
    as s [] s' es ⟨⟨own, hI⟩, ht, hno, by simp⟩ he
  simpa using key.2.2.2 i

/-- An execution in which no `access()` future is dropped between being handed the arbiter and its next poll. -/
def execNoLoss (s : St) : List Act → Option (St × List Ev)
  | [] => some (s, [])
  | a :: as =>
    match (match a with | .cancel i => (match s.lk i with | some l => l.popped | none => false) | _ => false) with
    | true => none
    | false =>
      match step s a with
      | none => none
      | some (s1, e) =>
        match execNoLoss s1 as with
        | none => none
        | some (s2, es) => some (s2, e ++ es)

theorem execNoLoss_induct {P : St → List Ev → Prop}
    (hstep : ∀ s tr a s' e, P s tr → (∀ i l, a = .cancel i → s.lk i = some l → l.popped = false) →
      step s a = some (s', e) → P s' (tr ++ e)) :
    ∀ (as : List Act) (s : St) (tr : List Ev) (s' : St) (es : List Ev), P s tr →
      execNoLoss s as = some (s', es) → P s' (tr ++ es)
  | [], s, tr, s', es, h, he => by cases he; simpa using h
  | a :: as, s, tr, s', es, h, he => by
    simp only [execNoLoss] at he
    split at he
    · cases he
    · rename_i hcond
      split at he
      · cases he
      · rename_i s1 e hs
        split at he
        · cases he
        · rename_i s2 es' hs2
          cases he
          have hc : ∀ i l, a = .cancel i → s.lk i = some l → l.popped = false := by
            intro i l ha hl; subst ha; simpa [hl] using hcond
          have := execNoLoss_induct hstep as s1 (tr ++ e) _ es' (hstep _ _ _ _ _ h hc hs) hs2
          simpa using this

theorem holder_step {s s' : St} {a : Act} {tr e : List Ev}
    (h : InvH s tr ∧ (s.taken = true → ∃ i, Holds s i) ∧ ∀ i l, s.pc i = .fut → s.lk i = some l → l.popped = true → ∃ w, Ev.handed i w ∈ tr)
    (hno : ∀ i l, a = .cancel i → s.lk i = some l → l.popped = false) (hs : step s a = some (s', e)) :
    InvH s' (tr ++ e) ∧ (s'.taken = true → ∃ i, Holds s' i) ∧
      ∀ i l, s'.pc i = .fut → s'.lk i = some l → l.popped = true → ∃ w, Ev.handed i w ∈ tr ++ e := by
  obtain ⟨hI, ht, hev⟩ := h
  refine ⟨invH_step hI hs, ?_⟩
  have hev' : ∀ i l, s.pc i = .fut → s.lk i = some l → l.popped = true → ∃ w, Ev.handed i w ∈ tr ++ e := by
    intro i l h1 h2 h3; obtain ⟨w, hw⟩ := hev i l h1 h2 h3; exact ⟨w, List.mem_append_left _ hw⟩
  have other : ∀ (t : St) (k : Nat), t.taken = s.taken → (∀ j, j ≠ k → t.pc j = s.pc j ∧ t.lk j = s.lk j) →
      (Holds s k → Holds t k) → t.taken = true → ∃ i, Holds t i := by
    intro t k h1 h2 h3 h4
    obtain ⟨i, hi⟩ := ht (h1 ▸ h4)
    by_cases hik : i = k
    · subst hik; exact ⟨i, h3 hi⟩
    · exact ⟨i, by unfold Holds at hi ⊢; rw [(h2 i hik).1, (h2 i hik).2]; exact hi⟩
  cases a with
  | access k =>
    simp only [step] at hs; split at hs <;> cases hs
    rename_i hp
    refine ⟨other _ k rfl (fun j hj => by simp [set_apply, hj]) ?_, ?_⟩
    · intro hk; simp [Holds, hp] at hk
    · intro i l; have := hev' i l; grind
  | poll k w =>
    simp only [step] at hs; split at hs
    · rename_i hp
      split at hs
      · cases hs
        exact ⟨fun _ => ⟨k, .inr (.inl (by simp))⟩, by intro i l; have := hev' i l; grind⟩
      · split at hs
        · rename_i l hl
          split at hs
          · cases hs
            exact ⟨fun _ => ⟨k, .inr (.inl (by simp))⟩, by intro i l; have := hev' i l; grind⟩
          · cases hs; exact ⟨ht, hev'⟩
        · rename_i hl
          cases hs
          refine ⟨other _ k rfl (fun j hj => by simp [set_apply, hj]) ?_, ?_⟩
          · intro hk; simp [Holds, hp, hl] at hk
          · intro i l; have := hev' i l; grind
    · cases hs
  | fin k =>
    simp only [step] at hs; split at hs <;> cases hs
    refine ⟨fun _ => ⟨k, .inl (by simp)⟩, ?_⟩
    intro i l; have := hev' i l; grind
  | cancel k =>
    simp only [step] at hs; split at hs <;> cases hs
    rename_i hp
    refine ⟨other _ k rfl (fun j hj => by simp [set_apply, hj]) ?_, ?_⟩
    · intro hk
      rcases hk with hk | hk | ⟨-, l, hl, hpop⟩
      · rw [hp] at hk; cases hk
      · rw [hp] at hk; cases hk
      · have := hno k l rfl hl; rw [this] at hpop; cases hpop
    · intro i l; have := hev' i l; grind
  | tryAccess k =>
    simp only [step] at hs; split at hs
    · split at hs
      · cases hs
        exact ⟨fun _ => ⟨k, .inl (by simp)⟩, by intro i l; have := hev' i l; grind⟩
      · cases hs; exact ⟨ht, hev'⟩
    · cases hs
  | dropTok k =>
    obtain ⟨own, hI'⟩ := hI.inv
    simp only [step] at hs; split at hs
    · rename_i hp
      split at hs
      · cases hs; exact ⟨by simp, by intro i l; have := hev' i l; grind⟩
      · rename_i j q hq
        split at hs
        · rename_i l hl
          cases hs
          have hj := (hI'.mem j).1 (by simp [hq])
          have hjk : j ≠ k := by rintro rfl; rw [hp] at hj; cases hj.1
          refine ⟨fun _ => ⟨j, .inr (.inr ⟨by simp [set_apply, hjk, hj.1], { l with popped := true }, by simp, rfl⟩)⟩, ?_⟩
          intro i l'
          by_cases hij : i = j
          · subst hij; intro _ _ _; exact ⟨l.w, by simp⟩
          · have := hev' i l'; grind
        · cases hs
    · cases hs

/-- **C17 (part)** If no access future is dropped between being handed the arbiter and its next poll, then whenever no token
exists the arbiter is free, or has been handed to a waiting, woken access that obtains the token when it is polled. Cancelling an access
that still waits is allowed. Missing: cancellation right after the hand-over, for which the claim is false
(`C17_never_stuck_violated`). -/
theorem C17_never_stuck_partial {as : List Act} {s : St} {tr : List Ev} (h : execNoLoss init as = some (s, tr))
    (hno : ∀ i, s.pc i ≠ .token ∧ s.pc i ≠ .got) : Free s ∨ ∃ i, HandedOver s tr i := by
  have hP := execNoLoss_induct (P := fun s tr => InvH s tr ∧ (s.taken = true → ∃ i, Holds s i) ∧
      ∀ i l, s.pc i = .fut → s.lk i = some l → l.popped = true → ∃ w, Ev.handed i w ∈ tr)
    (fun s tr a s' e h hc hs => holder_step h hc hs) as init [] s tr
    ⟨⟨⟨none, inv_init⟩, rfl, by simp [handedTo, init]⟩, by simp [init], by simp [init]⟩ h
  simp only [List.nil_append] at hP
  obtain ⟨hI, ht, hev⟩ := hP
  obtain ⟨own, hI'⟩ := hI.inv
  cases htk : s.taken with
  | false =>
    refine .inl fun i hi => ⟨{ s with taken := true, pc := set s.pc i .token }, ?_⟩
    have hq : s.wq = [] := by
      refine Classical.byContradiction fun hc => ?_
      have := hI'.wtaken hc; rw [htk] at this; cases this
    simp [step, hi, hq, htk]
  | true =>
    obtain ⟨i, hi⟩ := ht htk
    rcases hi with hi | hi | ⟨hi, l, hl, hpop⟩
    · exact absurd hi (hno i).1
    · exact absurd hi (hno i).2
    · refine .inr ⟨i, hev i l hi hl hpop, fun w => ?_⟩
      refine ⟨_, _, by simp [step, hi, htk, hl, hpop]; rfl, by simp [step]; rfl, by simp⟩

/-- Non-vacuity: after a hand-over (with a third client cancelling while it waits) nobody holds a token. -/
example : (execNoLoss init [.tryAccess 0, .access 1, .poll 1 5, .access 2, .poll 2 6, .cancel 2, .dropTok 0]).map
    (fun r => (r.1.pc 0, r.1.pc 1, r.1.pc 2, r.1.taken, r.2.reverse.take 2))
    = some (.none, .fut, .none, true, [.handed 1 5, .released 0]) := by decide

/-- **C17 (part)** Cancelling an access that has not been handed the arbiter removes exactly it from the queue and changes nothing
else. -/
theorem C17_cancel_waiting_clean {s s' : St} {tr e : List Ev} {i : Nat} (h : Reach s tr) (hs : step s (.cancel i) = some (s', e)) :
    s'.taken = s.taken ∧ waitingList [] (tr ++ e) = (waitingList [] tr).erase i ∧ ∀ j, j ≠ i → s'.pc j = s.pc j ∧ s'.lk j = s.lk j := by
  rw [waitingList_append, (reach_inv h).wq]
  simp only [step] at hs; split at hs <;> cases hs
  exact ⟨rfl, rfl, fun j hj => by simp [set_apply, hj]⟩

/-- **C17 (part)** Dropping the token always succeeds, at once: if nobody waits the arbiter is free afterwards; otherwise the client that has waited longest has been woken and obtains the token at its next
poll, and all others keep their place. -/
theorem C17_release {s : St} {tr : List Ev} {i : Nat} (h : Reach s tr) (hi : s.pc i = .token) :
    ∃ s' e, step s (.dropTok i) = some (s', e) ∧ (∀ j, s'.pc j ≠ .token) ∧
      match waitingList [] tr with
      | [] => e = [.released i] ∧ Free s'
      | j :: q => ∃ w, e = [.released i, .handed j w] ∧ HandedOver s' (tr ++ e) j ∧ waitingList [] (tr ++ e) = q := by
  have hR := reach_inv h
  obtain ⟨own, hI⟩ := hR.inv
  have hu : ∀ j, j ≠ i → s.pc j ≠ .token := fun j hj hp => hj (C15_at_most_one_token h hp hi)
  have hu' : ∀ (j : Nat), set s.pc i Pc.none j ≠ .token := by
    intro j; simp only [set_apply]; split
    · simp
    · rename_i hj; exact hu j hj
  rw [hR.wq]
  cases hq : s.wq with
  | nil =>
    refine ⟨{ s with taken := false, pc := set s.pc i .none }, [.released i], by simp [step, hi, hq], hu', rfl, fun j hj => ?_⟩
    simp only at hj
    exact ⟨_, by simp only [step, hj, hq]; simp; rfl⟩
  | cons j q =>
    obtain ⟨hj, l, hl, hp⟩ := (hI.mem j).1 (by simp [hq])
    have hji : j ≠ i := by rintro rfl; rw [hi] at hj; cases hj
    have ht := hI.wtaken (by simp [hq])
    refine ⟨{ s with wq := q, lk := set s.lk j (some { l with popped := true }), pc := set s.pc i .none }, [.released i, .handed j l.w],
      by simp [step, hi, hq, hl], hu', l.w, rfl, ⟨⟨l.w, by simp⟩, fun w => ?_⟩, ?_⟩
    · have hpj : set s.pc i .none j = .fut := by simp [set_apply, hji, hj]
      refine ⟨_, _, by simp [step, hpj, ht]; rfl, by simp [step]; rfl, by simp⟩
    · rw [waitingList_append, hR.wq, hq]; simp [waitingList]

/-- **C17 (part)** No operation is ever blocked: a future can be polled or dropped, a finished one delivers its token, `try_access` answers. -/
theorem C17_never_blocked {s : St} (i w : Nat) :
    (s.pc i = .none → (∃ r, step s (.access i) = some r) ∧ ∃ r, step s (.tryAccess i) = some r) ∧
    (s.pc i = .fut → (∃ r, step s (.poll i w) = some r) ∧ ∃ r, step s (.cancel i) = some r) ∧
    (s.pc i = .got → ∃ r, step s (.fin i) = some r) := by
  refine ⟨fun h => ⟨⟨_, by simp only [step, h]; rfl⟩, ?_⟩, fun h => ⟨?_, ⟨_, by simp only [step, h]; rfl⟩⟩, fun h => ⟨_, by simp only [step, h]; rfl⟩⟩
  · simp only [step, h]; split <;> exact ⟨_, rfl⟩
  · simp only [step, h]; split
    · exact ⟨_, rfl⟩
    · split
      · split <;> exact ⟨_, rfl⟩
      · exact ⟨_, rfl⟩

/-- **C17 (part)** In executions without the cancellation of `C17_never_stuck_violated`, `try_access` fails only if somebody holds the token, is about to create it, or was handed the arbiter while waiting. -/
theorem C17_try_access_partial {as : List Act} {s s' : St} {tr e : List Ev} {i : Nat} (h : execNoLoss init as = some (s, tr))
    (hs : step s (.tryAccess i) = some (s', e)) : (e = [.acquired i] ∧ s'.pc i = .token ∧ ∀ j, ¬ Holds s j) ∨ (e = [.tryFailed i] ∧ s' = s ∧ ∃ j, Holds s j) := by
  have hP := execNoLoss_induct (P := fun s tr => InvH s tr ∧ (s.taken = true → ∃ i, Holds s i) ∧
      ∀ i l, s.pc i = .fut → s.lk i = some l → l.popped = true → ∃ w, Ev.handed i w ∈ tr)
    (fun s tr a s' e h hc hs => holder_step h hc hs) as init [] s tr
    ⟨⟨⟨none, inv_init⟩, rfl, by simp [handedTo, init]⟩, by simp [init], by simp [init]⟩ h
  simp only [List.nil_append] at hP
  obtain ⟨hI, ht, -⟩ := hP
  obtain ⟨own, hI'⟩ := hI.inv
  cases tr_of_step hs with
  | tryOk _ hp hq htk =>
    refine .inl ⟨rfl, by simp, fun j hj => ?_⟩
    have := hI'.otaken (by rw [(hI'.own j).2 hj]; simp)
    rw [htk] at this; cases this
  | tryFail _ hp hc =>
    refine .inr ⟨rfl, rfl, ht ?_⟩
    cases htk : s.taken with
    | true => rfl
    | false =>
      refine absurd ⟨?_, htk⟩ hc
      exact Classical.byContradiction fun hq => by have := hI'.wtaken hq; rw [htk] at this; cases this

end Verif.Arbiter
