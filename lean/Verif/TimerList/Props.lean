import Verif.TimerList.Lemmas

/-!
# C26: the timer list is sorted and stable

`specRun` (file `Spec.lean`) describes the list as a bag of entries in insertion order. `run` is the pointer implementation on a heap.
`StableSorted t q l` (file `Lemmas.lean`): `q` is a permutation of `l`, sorted by `t`, and for each time the elements of `q` with
this time are those of `l`, in the same order.
-/

namespace Verif.TimerList

/-- The pointer structure `c` is a well-formed linked list with exactly the nodes `q`, in this order. -/
def Linked (c : TL) (q : List Nat) : Prop :=
  c.head = q.head? ∧ q.Nodup ∧ ∀ i a, q[i]? = some a → ∃ nd, c.mem a = some nd ∧ nd.next = q[i + 1]?

theorem chain_get {mem : Nat → Option Node} : ∀ (q : List Nat) (p : Option Nat), Chain mem p q →
    p = q.head? ∧ ∀ i a, q[i]? = some a → ∃ nd, mem a = some nd ∧ nd.next = q[i + 1]?
  | [], p, h => ⟨h, by simp⟩
  | x :: q, p, ⟨h1, nd, h2, h3⟩ => by
    obtain ⟨h4, h5⟩ := chain_get q nd.next h3
    refine ⟨h1, ?_⟩
    intro i a hi
    cases i with
    | zero => simp at hi; subst hi; exact ⟨nd, h2, by rw [h4]; simp [List.head?_eq_getElem?]⟩
    | succ i => simp at hi; obtain ⟨nd', h6, h7⟩ := h5 i a hi; exact ⟨nd', h6, by rw [h7]; simp⟩

/-- **C26** Every history of insertions, deletions and conditional pops that respects the contract (any number of entries at any
addresses, release times in the list less than half the counter range apart) runs on the pointer structure without touching unallocated
memory and without endless loops, and gives the specified results: an insertion reports exactly whether the new entry is the earliest one, the
conditional pop looks at and takes the earliest entry (the first inserted among equals). The linked list then holds exactly the
inserted and not removed entries, sorted by release time, equal times in insertion order. -/
theorem C26_timer_list_sorted_stable {w : Nat} (hw : 0 < w) (ops : List Op) (s : Spec) (os : List Out)
    (h : specRun w Spec.empty ops = some (s, os)) :
    ∃ c q, run w empty ops = some (c, os) ∧ Linked c q ∧ StableSorted (timeOf s.links) q s.arr ∧
      ∀ a, (c.mem a).map (·.val) = s.links a := by
  obtain ⟨c, q, h1, h2⟩ := rep_run hw ops rep_empty h
  obtain ⟨h3, h4⟩ := chain_get q _ h2.chain
  exact ⟨c, q, h1, ⟨h3, h2.nodup, h4⟩, h2.sorted, h2.links⟩

/-- **C26** The order is determined: two stably sorted arrangements of the same entries are equal. -/
theorem C26_order_unique {t : Nat → Nat} {q q' l : List Nat} (h : StableSorted t q l) (h' : StableSorted t q' l) : q = q' := by
  have mem_of : ∀ {q q' : List Nat}, (∀ k, q.filter (fun a => t a = k) = q'.filter (fun a => t a = k)) → ∀ a ∈ q, a ∈ q' := by
    intro q q' hf a ha
    have : a ∈ q.filter (fun x => t x = t a) := by simp [ha]
    rw [hf (t a)] at this
    exact (List.mem_filter.1 this).1
  have key : ∀ (q q' : List Nat), q.Pairwise (fun a b => t a ≤ t b) → q'.Pairwise (fun a b => t a ≤ t b) →
      (∀ k, q.filter (fun a => t a = k) = q'.filter (fun a => t a = k)) → q = q' := by
    intro q
    induction q with
    | nil =>
      intro q' _ _ hf
      cases q' with
      | nil => rfl
      | cons b q' => have := mem_of (fun k => (hf k).symm) b List.mem_cons_self; cases this
    | cons a q ih =>
      intro q' h1 h2 hf
      cases q' with
      | nil => have := mem_of hf a List.mem_cons_self; cases this
      | cons b q' =>
        have hab : t b ≤ t a := by
          rcases List.mem_cons.1 (mem_of hf a List.mem_cons_self) with h | h
          · rw [h]; exact Nat.le_refl _
          · exact (List.pairwise_cons.1 h2).1 a h
        have hba : t a ≤ t b := by
          rcases List.mem_cons.1 (mem_of (fun k => (hf k).symm) b List.mem_cons_self) with h | h
          · rw [h]; exact Nat.le_refl _
          · exact (List.pairwise_cons.1 h1).1 b h
        have hk : t a = t b := by omega
        have h3 := hf (t a)
        rw [List.filter_cons, List.filter_cons] at h3
        simp [hk] at h3
        obtain ⟨rfl, -⟩ := h3
        refine congrArg _ (ih q' (List.pairwise_cons.1 h1).2 (List.pairwise_cons.1 h2).2 fun k => ?_)
        have h4 := hf k
        rw [List.filter_cons, List.filter_cons] at h4
        split at h4
        · simpa using h4
        · exact h4
  exact key q q' h.2.1 h'.2.1 (fun k => (h.2.2 k).trans (h'.2.2 k).symm)

theorem deleteLoop_absent {a : Nat} (s : TL) : ∀ (q : List Nat) (curr : Nat) (p : Option Nat), Chain s.mem p q → a ∉ q → s.deleteLoop a curr p = some s
  | [], curr, p, h, _ => by
    have : p = none := h
    rw [TL.deleteLoop.eq_def, this]
  | n :: q, curr, p, ⟨h1, nd, h2, h3⟩, ha => by
    rw [TL.deleteLoop.eq_def, h1]
    simp only [h2]
    rw [if_neg (fun e => ha (by simp [e]))]
    exact deleteLoop_absent s q n nd.next h3 (fun hh => ha (List.mem_cons_of_mem _ hh))

theorem delete_absent {a : Nat} (s : TL) (q : List Nat) (h : Chain s.mem s.head q) (ha : a ∉ q) : s.delete a = some s := by
  cases q with
  | nil =>
    have : s.head = none := h
    simp [TL.delete, this]
  | cons n q =>
    obtain ⟨h1, nd, h2, h3⟩ := h
    simp only [TL.delete, h1, h2]
    rw [if_neg (fun e => ha (by simp [e]))]
    exact deleteLoop_absent s q n nd.next h3 (fun hh => ha (List.mem_cons_of_mem _ hh))

/-- **C26** Deleting a link that is not in the list (never inserted, already popped or deleted) changes nothing, neither in the list nor in memory. -/
theorem C26_delete_absent {w : Nat} (hw : 0 < w) (ops : List Op) (s : Spec) (os : List Out)
    (h : specRun w Spec.empty ops = some (s, os)) {a : Nat} (ha : a ∉ s.arr) :
    ∃ c, run w empty ops = some (c, os) ∧ c.delete a = some c := by
  obtain ⟨c, q, h1, h2⟩ := rep_run hw ops rep_empty h
  have hq : a ∉ q := fun hh => ha (h2.sorted.1.mem_iff.mp hh)
  exact ⟨c, h1, delete_absent c q h2.chain hq⟩

/-- Non-vacuity: four delays around the wrap of an 8-bit counter (times 250, 260, 250, 255), two with the same time; the head is popped, one is deleted. -/
example : (specRun 8 Spec.empty [.insert 10 1 250, .insert 20 2 260, .insert 30 3 250, .insert 40 4 249, .delete 20,
      .popIf (fun e => e.time ≤ 250), .popIf (fun e => e.time ≤ 250), .popIf (fun e => e.time ≤ 249), .wasPopped 10, .wasPopped 30]).map (·.2)
    = some [.headUpdated true, .headUpdated false, .headUpdated false, .headUpdated true, .unit,
      .popped (some ⟨4, 249, true⟩), .popped (some ⟨1, 250, true⟩), .popped none, .bool true, .bool false] := by decide

end Verif.TimerList
