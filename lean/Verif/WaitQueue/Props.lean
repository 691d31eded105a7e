import Verif.WaitQueue.Lemmas

/-!
# C12, C13: the wait queue is a FIFO list with removal

`specRun` (file `Spec.lean`) is the plain list behaviour, and it is `some _` exactly for client histories that respect
the documented contract. `run` is the pointer implementation on a heap, `none` being a memory fault.
-/

namespace Verif.WaitQueue

variable {α : Type}

/-- The pointer structure `c` is a well-formed doubly linked list with exactly the nodes `q`, in this order:
head/tail are the first/last node, and the `next`/`prev` of the `i`-th node are the nodes `i+1`/`i-1`. -/
def Linked (c : WQ α) (q : List Nat) : Prop :=
  c.head = q.head? ∧ c.tail = q.getLast? ∧ q.Nodup ∧
  ∀ i a, q[i]? = some a → ∃ l, c.mem a = some l ∧ l.isPopped = false ∧
    l.next = q[i + 1]? ∧ l.prev = (if i = 0 then none else q[i - 1]?)

theorem nextOf_head? (q : List Nat) : nextOf q none = q.head? := by cases q <;> rfl

theorem lastOf_getLast? : ∀ (q : List Nat) (p), lastOf p q = (match q.getLast? with | some a => some a | none => p)
  | [], p => rfl
  | a :: q, p => by
    rw [lastOf, lastOf_getLast? q (some a), List.getLast?_cons]
    cases q.getLast? <;> rfl

theorem seg_get : ∀ {mem : Nat → Option (Link α)} (q : List Nat) (p : Option Nat), Seg mem p q none →
    ∀ i a, q[i]? = some a → ∃ l, mem a = some l ∧ l.isPopped = false ∧
      l.next = q[i + 1]? ∧ l.prev = (if i = 0 then p else q[i - 1]?)
  | _, [], _, _, i, a, h => by simp at h
  | mem, x :: q, p, hs, i, a, h => by
    obtain ⟨⟨v, hv⟩, hs⟩ := hs
    cases i with
    | zero =>
      simp at h; subst h
      refine ⟨_, hv, rfl, ?_, by simp⟩
      cases q <;> rfl
    | succ i =>
      simp only [List.getElem?_cons_succ] at h
      obtain ⟨l, h1, h2, h3, h4⟩ := seg_get q (some x) hs i a h
      refine ⟨l, h1, h2, by simpa using h3, ?_⟩
      rw [h4]
      cases i with
      | zero => simp
      | succ i => simp

theorem Rep.linked {c : WQ α} {s : Spec α} (h : Rep c s) : Linked c s.q := by
  refine ⟨h.head.trans (nextOf_head? _), ?_, h.nodup, ?_⟩
  · rw [h.tail, lastOf_getLast?]; cases s.q.getLast? <;> rfl
  · intro i a hi
    exact seg_get s.q none h.seg i a hi

/-- **C12** Every history of operations (on any number of links, at any addresses) that respects the contract of the queue
runs on the pointer structure without touching unallocated memory, gives exactly the results of a plain list (push appends,
pop takes the oldest, remove takes out exactly the given element), and leaves a doubly linked list that is consistent in
both directions and contains exactly the elements of that plain list in order. -/
theorem C12_wait_queue_is_list (ops : List (Op α)) (s : Spec α) (os : List (Out α))
    (h : specRun Spec.empty ops = some (s, os)) :
    ∃ c, run empty ops = some (c, os) ∧ Linked c s.q ∧
      ∀ a, (c.mem a).map (fun l => (l.val, l.isPopped)) = s.links a := by
  obtain ⟨c, hc, hr⟩ := rep_run rep_empty h
  exact ⟨c, hc, hr.linked, hr.links⟩

/-- Non-vacuity: three waiters, the middle one leaves, the other two are popped in order. -/
example : (specRun (Spec.empty : Spec String)
    [.newLink 8 "a", .newLink 3 "b", .newLink 5 "c", .push 8, .push 3, .push 5, .remove 3, .pop, .pop, .pop,
      .isPopped 3, .isEmpty]).map (·.2)
    = some [.unit, .unit, .unit, .unit, .unit, .unit, .unit, .popped (some "a"), .popped (some "c"), .popped none,
      .bool true, .bool true] := by decide

example : ((run (empty : WQ String)
    [.newLink 8 "a", .newLink 3 "b", .newLink 5 "c", .push 8, .push 3, .push 5, .remove 3, .pop]).map (·.2))
    = some [.unit, .unit, .unit, .unit, .unit, .unit, .unit, .popped (some "a")] := by decide

/-! ## C13 -/

/-- Was the current link at `a` pushed, according to the client's history? -/
def pushed (a : Nat) : List (Op α) → Bool → Bool
  | [], b => b
  | .newLink x _ :: ops, b => pushed a ops (if x = a then false else b)
  | .push x :: ops, b => pushed a ops (if x = a then true else b)
  | _ :: ops, b => pushed a ops b

/-- Was the current link at `a` removed, according to the client's history? -/
def removed (a : Nat) : List (Op α) → Bool → Bool
  | [], b => b
  | .newLink x _ :: ops, b => removed a ops (if x = a then false else b)
  | .remove x :: ops, b => removed a ops (if x = a then true else b)
  | _ :: ops, b => removed a ops b

/-- The relation between the flag, the queue and the history. -/
def PopInv (s : Spec α) (a : Nat) (p r : Bool) : Prop :=
  s.q.Nodup ∧ (∀ b ∈ s.q, ∃ v, s.links b = some (v, false)) ∧ (a ∈ s.q → p = true) ∧
  ∀ v f, s.links a = some (v, f) → (f = true ↔ (p = true ∧ a ∉ s.q) ∨ r = true)

theorem popInv_step {s s' : Spec α} {op : Op α} {o : Out α} {a : Nat} {p r : Bool} (h : PopInv s a p r)
    (hs : specStep s op = some (s', o)) : PopInv s' a (pushed a [op] p) (removed a [op] r) := by
  obtain ⟨hnd, hfl, hap, hi⟩ := h
  cases op with
  | newLink x v =>
    simp only [specStep] at hs
    split at hs
    · cases hs
    · rename_i hx
      cases hs
      refine ⟨hnd, ?_, ?_, ?_⟩
      · intro b hb
        have : b ≠ x := by rintro rfl; exact hx hb
        simpa [Spec.set, this] using hfl b hb
      · intro ha
        have : x ≠ a := by rintro rfl; exact hx ha
        simpa [pushed, this] using hap ha
      · intro w f hw
        by_cases hax : a = x
        · subst hax; simp [Spec.set] at hw; simp [pushed, removed, hw]
        · have hxa : x ≠ a := fun h => hax h.symm
          simp [Spec.set, hax] at hw
          simpa [pushed, removed, hxa] using hi w f hw
  | push x =>
    simp only [specStep] at hs
    split at hs
    · rename_i v hv
      split at hs
      · cases hs
      · rename_i hx
        cases hs
        refine ⟨?_, ?_, ?_, ?_⟩
        · rw [List.nodup_append]
          exact ⟨hnd, by simp, by intro y hy z hz; simp at hz; subst hz; rintro rfl; exact hx hy⟩
        · intro b hb
          rcases List.mem_append.1 hb with hb | hb
          · exact hfl b hb
          · simp at hb; subst hb; exact ⟨v, hv⟩
        · intro ha
          by_cases hxa : x = a
          · simp [pushed, hxa]
          · simp [pushed, hxa]; apply hap
            rcases List.mem_append.1 ha with h | h
            · exact h
            · simp at h; exact absurd h.symm hxa
        · intro w f hw
          by_cases hxa : x = a
          · subst hxa
            rw [show s.links x = some (w, f) from hw] at hv; cases hv
            have := hi v false hw
            simp at this
            simp [pushed, removed, this.2]
          · have := hi w f hw
            have hax : a ≠ x := fun h => hxa h.symm
            simp [pushed, removed, hxa, this, hax]
    · cases hs
  | pop =>
    simp only [specStep] at hs
    split at hs
    · cases hs; exact ⟨hnd, hfl, hap, hi⟩
    · rename_i x q hq
      split at hs
      · rename_i v b hv
        cases hs
        rw [hq] at hnd hfl hi hap
        have hxq := (List.nodup_cons.1 hnd).1
        refine ⟨(List.nodup_cons.1 hnd).2, ?_, fun ha => hap (List.mem_cons_of_mem _ ha), ?_⟩
        · intro b hb
          have : b ≠ x := by rintro rfl; exact hxq hb
          simpa [Spec.set, this] using hfl b (List.mem_cons_of_mem _ hb)
        · intro w f hw
          by_cases hax : a = x
          · subst hax
            simp [Spec.set] at hw
            obtain ⟨-, rfl⟩ := hw
            have := hap List.mem_cons_self
            simp [pushed, removed, hxq, this]
          · simp [Spec.set, hax] at hw
            have := hi w f hw
            simpa [pushed, removed, hax] using this
      · cases hs
  | remove x =>
    simp only [specStep] at hs
    split at hs
    · rename_i v b hv
      cases hs
      refine ⟨hnd.erase x, ?_, fun ha => hap (List.mem_of_mem_erase ha), ?_⟩
      · intro b hb
        have : b ≠ x := by rintro rfl; exact (List.Nodup.not_mem_erase hnd) hb
        simpa [Spec.set, this] using hfl b (List.mem_of_mem_erase hb)
      · intro w f hw
        by_cases hax : a = x
        · subst hax
          simp [Spec.set] at hw
          obtain ⟨-, rfl⟩ := hw
          simp [removed]
        · have hxa : x ≠ a := fun h => hax h.symm
          simp [Spec.set, hax] at hw
          have := hi w f hw
          simpa [pushed, removed, hxa, List.mem_erase_of_ne hax] using this
    · cases hs
  | isEmpty => simp only [specStep] at hs; cases hs; exact ⟨hnd, hfl, hap, hi⟩
  | isPopped x =>
    simp only [specStep] at hs
    split at hs
    · cases hs; exact ⟨hnd, hfl, hap, hi⟩
    · cases hs
  | free x =>
    simp only [specStep] at hs
    split at hs
    · cases hs
    · rename_i hx
      cases hs
      refine ⟨hnd, ?_, hap, ?_⟩
      · intro b hb
        have : b ≠ x := by rintro rfl; exact hx hb
        simpa [Spec.set, this] using hfl b hb
      · intro w f hw
        by_cases hax : a = x
        · subst hax; simp [Spec.set] at hw
        · simp [Spec.set, hax] at hw; exact hi w f hw

theorem pushed_cons (a : Nat) (op : Op α) (ops) (b) : pushed a (op :: ops) b = pushed a ops (pushed a [op] b) := by
  cases op <;> simp [pushed]
theorem removed_cons (a : Nat) (op : Op α) (ops) (b) :
    removed a (op :: ops) b = removed a ops (removed a [op] b) := by
  cases op <;> simp [removed]

theorem popInv_run {ops : List (Op α)} : ∀ {s s' : Spec α} {os : List (Out α)} {a : Nat} {p r : Bool}, PopInv s a p r →
    specRun s ops = some (s', os) → PopInv s' a (pushed a ops p) (removed a ops r) := by
  induction ops with
  | nil => intro s s' os a p r h hs; cases hs; exact h
  | cons op ops ih =>
    intro s s' os a p r h hs
    simp only [specRun, Option.bind_eq_bind] at hs
    obtain ⟨⟨s1, o⟩, h1, hs⟩ := Option.bind_eq_some_iff.1 hs
    obtain ⟨⟨s2, os'⟩, h2, hs⟩ := Option.bind_eq_some_iff.1 hs
    cases hs
    rw [pushed_cons, removed_cons]
    exact ih (popInv_step h h1) h2

/-- **C13** After any contract-respecting history, `is_popped()` of a live link answers `true` exactly if the link was pushed
and is no longer in the queue (it was popped or removed), or `remove_from_list` was called on it. -/
theorem C13_is_popped_exact (ops : List (Op α)) (s : Spec α) (os : List (Out α)) (a : Nat)
    (h : specRun Spec.empty ops = some (s, os)) (halive : (s.links a).isSome) :
    ∃ c b, run empty ops = some (c, os) ∧ c.isPopped a = some b ∧
      (b = true ↔ (pushed a ops false = true ∧ a ∉ s.q) ∨ removed a ops false = true) := by
  obtain ⟨c, hc, hr⟩ := rep_run rep_empty h
  have hi : PopInv (Spec.empty : Spec α) a false false :=
    ⟨List.nodup_nil, by simp [Spec.empty], by simp [Spec.empty], by simp [Spec.empty]⟩
  obtain ⟨-, -, -, hi⟩ := popInv_run hi h
  obtain ⟨⟨v, f⟩, hvf⟩ := Option.isSome_iff_exists.1 halive
  refine ⟨c, f, hc, ?_, hi v f hvf⟩
  have := hr.links a
  rw [hvf] at this
  obtain ⟨l, hl, hlv⟩ := Option.map_eq_some_iff.1 this
  simp [WQ.isPopped, hl, (Prod.mk.inj hlv).2]

/-- **C13** Removing a link that is not in the queue (never pushed, already popped, or already removed) leaves the queue as it
is: same elements, same order. -/
theorem C13_remove_absent_noop (ops : List (Op α)) (s : Spec α) (os : List (Out α)) (a : Nat)
    (h : specRun Spec.empty ops = some (s, os)) (halive : (s.links a).isSome) (ha : a ∉ s.q) :
    ∃ c c', run empty ops = some (c, os) ∧ c.remove a = some c' ∧ Linked c s.q ∧ Linked c' s.q ∧
      ∀ b, b ≠ a → (c'.mem b).map (fun l => (l.val, l.isPopped)) = (c.mem b).map (fun l => (l.val, l.isPopped)) := by
  obtain ⟨c, hc, hr⟩ := rep_run rep_empty h
  obtain ⟨⟨v, f⟩, hvf⟩ := Option.isSome_iff_exists.1 halive
  obtain ⟨c', hc', hr'⟩ := rep_remove hr hvf
  rw [List.erase_of_not_mem ha] at hr'
  refine ⟨c, c', hc, hc', hr.linked, hr'.linked, ?_⟩
  intro b hb
  rw [hr.links b, hr'.links b]
  simp [Spec.set, hb]

/-- **C13** Removal takes out exactly the given link, after which it is marked popped, and a second removal changes
nothing at all (not even in memory). -/
theorem C13_remove_idempotent (ops : List (Op α)) (s : Spec α) (os : List (Out α)) (a : Nat)
    (h : specRun Spec.empty ops = some (s, os)) (halive : (s.links a).isSome) :
    ∃ c c', run empty ops = some (c, os) ∧ c.remove a = some c' ∧ Linked c' (s.q.erase a) ∧
      c'.isPopped a = some true ∧ c'.remove a = some c' := by
  obtain ⟨c, hc, hr⟩ := rep_run rep_empty h
  obtain ⟨⟨v, f⟩, hvf⟩ := Option.isSome_iff_exists.1 halive
  obtain ⟨c', hc', hr'⟩ := rep_remove hr hvf
  have := hr'.links a
  simp only [Spec.set, if_true] at this
  obtain ⟨l, hl, hlv⟩ := Option.map_eq_some_iff.1 this
  have hp : l.isPopped = true := (Prod.mk.inj hlv).2
  exact ⟨c, c', hc, hc', hr'.linked, by simp [WQ.isPopped, hl, hp], by simp [WQ.remove, hl, hp]⟩

/-- Non-vacuity: link 3 was pushed and popped, link 5 is still queued, link 9 was never pushed. -/
example : ∃ s os, specRun (Spec.empty : Spec Unit)
    [.newLink 3 (), .newLink 5 (), .newLink 9 (), .push 3, .push 5, .pop] = some (s, os) ∧
    (s.links 3).isSome ∧ 3 ∉ s.q ∧ (s.links 5).isSome ∧ 5 ∈ s.q ∧ (s.links 9).isSome ∧ 9 ∉ s.q := by
  refine ⟨_, _, rfl, ?_⟩; decide

end Verif.WaitQueue
