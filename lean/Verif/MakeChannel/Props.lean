import Verif.MakeChannel.Model

/-!
# C115: one `make_channel!` gives out the ends of its channel once
-/

namespace Verif.MakeChannel

def Ev.isEnds : Ev → Bool
  | .ends _ => true
  | .panic _ => false

/-- how often the two ends were given out -/
def given (tr : List Ev) : Nat := tr.countP Ev.isEnds

/-- The caller has passed the test. -/
def Past : Pc → Prop
  | .store | .leave | .split => True
  | _ => False

structure Inv (s : St) (tr : List Ev) : Prop where
  inCs : ∀ i, s.pc i = .test ∨ s.pc i = .store ∨ s.pc i = .leave → s.owner = some i
  /-- nothing given, nobody past the test -/
  zero : s.check = 0 → given tr = 0 ∧ ∀ i, s.pc i ≠ .leave ∧ s.pc i ≠ .split
  nonzero : s.check ≠ 0 → ∀ i, s.pc i ≠ .store
  /-- at most one caller has passed, and then nothing has been given yet -/
  one : ∀ i j, Past (s.pc i) → Past (s.pc j) → i = j
  none_given : ∀ i, Past (s.pc i) → given tr = 0
  most : given tr ≤ 1

theorem set_apply (f : Nat → Pc) (i : Nat) (x : Pc) (j : Nat) : set f i x j = if j = i then x else f j := rfl

theorem inv_step {s s' : St} {a : Act} {e tr : List Ev} (h : Inv s tr) (hs : step s a = some (s', e)) : Inv s' (tr ++ e) := by
  obtain ⟨h1, h2, h3, h4, h5, h6⟩ := h
  cases a with
  | call i =>
    simp only [step] at hs
    split at hs <;> cases hs
    rename_i hp ho
    constructor <;> simp only [set_apply, List.append_nil] <;> grind [Past]
  | go i =>
    simp only [step] at hs
    split at hs
    · rename_i hp
      split at hs <;> cases hs
      · constructor <;> simp only [set_apply, given, List.countP_append, List.countP_singleton, Ev.isEnds] at * <;> grind [Past]
      · rename_i hc
        have hc : s.check = 0 := by omega
        have ho := h1 i (.inl hp)
        have hx : ∀ j, Past (s.pc j) → False := by
          intro j hj
          have h2 := (h2 hc).2 j
          cases hq : s.pc j <;> rw [hq] at hj <;> simp only [Past] at hj
          · have := h1 j (by simp [hq]); grind
          · exact h2.1 hq
          · exact h2.2 hq
        constructor <;> simp only [set_apply, List.append_nil] <;> grind [Past]
    · rename_i hp
      cases hs
      have := h5 i (by rw [hp]; trivial)
      have ho := h1 i (by simp [hp])
      constructor <;> simp only [set_apply, List.append_nil] <;> grind [Past]
    · rename_i hp
      cases hs
      have := h5 i (by rw [hp]; trivial)
      have ho := h1 i (by simp [hp])
      constructor <;> simp only [set_apply, List.append_nil] <;> grind [Past]
    · rename_i hp
      cases hs
      have h0 := h5 i (by rw [hp]; trivial)
      have hu : ∀ j, Past (s.pc j) → j = i := fun j hj => h4 j i hj (by rw [hp]; trivial)
      have hg : given (tr ++ [.ends i]) = 1 := by
        have : given (tr ++ [.ends i]) = given tr + 1 := by simp [given, Ev.isEnds]
        omega
      constructor <;> simp only [set_apply, hg] <;> grind [Past]
    · cases hs
  | unwind i =>
    simp only [step] at hs
    split at hs
    · split at hs <;> cases hs
      constructor <;> simp only [List.append_nil] <;> grind [Past]
    · cases hs

theorem inv_init : Inv init [] := by
  constructor <;> simp [init, given, Past]

theorem inv_exec : ∀ (as : List Act) (s s' : St) (tr es : List Ev), Inv s tr → exec s as = some (s', es) → Inv s' (tr ++ es)
  | [], s, s', tr, es, h, he => by cases he; simpa using h
  | a :: as, s, s', tr, es, h, he => by
    simp only [exec] at he
    split at he
    · cases he
    · rename_i s1 e hs
      split at he
      · cases he
      · rename_i s2 es' hs2
        cases he
        have := inv_exec as s1 s' (tr ++ e) es' (inv_step h hs) hs2
        simpa using this

/-- **C115** However often and from wherever one `make_channel!` is executed, the sender and receiver of its channel are given out at most once. -/
theorem C115_at_most_once {as : List Act} {s : St} {tr : List Ev} (he : exec init as = some (s, tr)) : given tr ≤ 1 := by
  have := (inv_exec as init s [] tr inv_init he).most
  simpa using this

/-- **C115** After the ends were given out, every further execution of the macro that gets as far as the test panics: nobody is or gets past it. -/
theorem C115_later_calls_panic {as : List Act} {s s' : St} {tr e : List Ev} {i : Nat} (he : exec init as = some (s, tr)) (hg : given tr = 1) (hp : s.pc i = .test)
    (hs : step s (.go i) = some (s', e)) : e = [.panic i] := by
  have h := inv_exec as init s [] tr inv_init he
  simp only [List.nil_append] at h
  have hc : s.check ≠ 0 := by
    intro h0
    have := (h.zero h0).1; omega
  simp only [step, hp, if_pos hc] at hs
  cases hs; rfl

/-- **C115** A panic is justified: some other execution of the macro got past the test before. The very first one does not panic. -/
theorem C115_panic_justified {as : List Act} {s s' : St} {tr e : List Ev} {i : Nat} (he : exec init as = some (s, tr)) (hs : step s (.go i) = some (s', e)) (hp : .panic i ∈ e) :
    given tr = 1 ∨ ∃ j, j ≠ i ∧ s.pc j = .split := by
  have key : ∀ (as : List Act) (s s' : St) (tr es : List Ev), (Inv s tr ∧ (s.check ≠ 0 → given tr = 1 ∨ ∃ j, Past (s.pc j))) → exec s as = some (s', es) →
      (Inv s' (tr ++ es) ∧ (s'.check ≠ 0 → given (tr ++ es) = 1 ∨ ∃ j, Past (s'.pc j))) := by
    intro as
    induction as with
    | nil => intro s s' tr es h he; cases he; simpa using h
    | cons a as ih =>
      intro s s' tr es h he
      simp only [exec] at he
      split at he
      · cases he
      · rename_i s1 e hs
        split at he
        · cases he
        · rename_i s2 es' hs2
          cases he
          have := ih s1 s' (tr ++ e) es' ⟨inv_step h.1 hs, ?_⟩ hs2
          · simpa using this
          · obtain ⟨hi, hx⟩ := h
            intro hc
            cases a with
            | call i =>
              simp only [step] at hs
              split at hs <;> cases hs
              rename_i hp ho
              rcases hx hc with hx | ⟨j, hj⟩
              · left; simpa using hx
              · right; refine ⟨j, ?_⟩; simp only [set_apply]; split
                · rename_i h; subst h; rw [hp] at hj; cases hj
                · exact hj
            | go i =>
              simp only [step] at hs
              split at hs
              · rename_i hp
                split at hs <;> cases hs
                · rcases hx hc with hx | ⟨j, hj⟩
                  · left; simpa [given, Ev.isEnds] using hx
                  · right; refine ⟨j, ?_⟩; simp only [set_apply]; split
                    · rename_i h; subst h; rw [hp] at hj; cases hj
                    · exact hj
                · exact absurd hc (by assumption)
              · cases hs; right; exact ⟨i, by simp [set_apply, Past]⟩
              · cases hs; right; exact ⟨i, by simp [set_apply, Past]⟩
              · rename_i hp
                cases hs
                left
                have := hi.none_given i (by rw [hp]; trivial)
                simp only [given, List.countP_append] at this ⊢
                simp [this, Ev.isEnds]
              · cases hs
            | unwind i =>
              simp only [step] at hs
              split at hs
              · split at hs <;> cases hs
                simpa using hx hc
              · cases hs
  have h := key as init s [] tr ⟨inv_init, by simp [init]⟩ he
  simp only [List.nil_append] at h
  simp only [step] at hs
  split at hs
  · rename_i ht
    split at hs <;> cases hs
    · rename_i hc
      rcases h.2 hc with h' | ⟨j, hj⟩
      · exact .inl h'
      · right
        have ho := h.1.inCs i (.inl ht)
        refine ⟨j, ?_, ?_⟩
        · intro hji; subst hji; rw [ht] at hj; cases hj
        cases hq : s.pc j <;> rw [hq] at hj <;> simp only [Past] at hj
        · have := h.1.inCs j (by simp [hq]); rw [ho] at this; cases this; rw [ht] at hq; cases hq
        · have := h.1.inCs j (by simp [hq]); rw [ho] at this; cases this; rw [ht] at hq; cases hq
    · simp at hp
  all_goals first | (cases hs; simp at hp) | cases hs

/-- Two callers race: the second enters the critical section before the first has split the channel; it panics, and the first one gets the ends. -/
example : (exec init [.call 1, .go 1, .go 1, .go 1, .call 2, .go 2, .unwind 2, .go 1, .call 3, .go 3]).map (·.2) = some [.panic 2, .ends 1, .panic 3] := by decide

end Verif.MakeChannel
