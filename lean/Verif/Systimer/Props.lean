import Verif.Systimer.Model

/-! # Properties of the ESP32 clock (C69) -/

namespace Verif.Systimer

theorem exec_append {s s' : St} {as bs : List Act} {es : List Ret} (h : exec s (as ++ bs) = some (s', es)) :
    ∃ s1 e1 e2, exec s as = some (s1, e1) ∧ exec s1 bs = some (s', e2) ∧ es = e1 ++ e2 := by
  induction as generalizing s es with
  | nil => exact ⟨s, [], es, rfl, h, rfl⟩
  | cons a as ih =>
    simp only [List.cons_append, exec] at h ⊢
    cases hs : step s a with
    | none => simp [hs] at h
    | some r =>
      simp only [hs] at h ⊢
      cases hx : exec r.1 (as ++ bs) with
      | none => simp [hx] at h
      | some q =>
        simp only [hx, Option.some.injEq] at h
        obtain ⟨s1, e1, e2, h1, h2, h3⟩ := ih (s := r.1) (es := q.2) (by rw [hx]; cases h; rfl)
        refine ⟨s1, r.2.toList ++ e1, e2, by simp [h1], h2, ?_⟩
        cases h
        simp [h3]

theorem or_shift {l h : Nat} (hl : l < 2 ^ 32) : l ||| (h <<< 32) = l + 2 ^ 32 * h := by
  rw [Nat.or_comm, ← Nat.shiftLeft_add_eq_or_of_lt hl, Nat.shiftLeft_eq]; omega

/-- A snapshot time is between `t0` and now. -/
def Snap (s : St) (t0 : Nat) : Prop := s.req = true ∨ ∃ t, t0 ≤ t ∧ t ≤ s.now ∧ s.latch = t % 2 ^ 52

def Good (s : St) : Pc → Prop
  | .idle => True
  | .spin t0 => t0 ≤ s.now ∧ (s.req = false → ∃ t, t0 ≤ t ∧ t ≤ s.now ∧ s.latch = t % 2 ^ 52)
  | .lo t0 => ∃ t, t0 ≤ t ∧ t ≤ s.now ∧ s.latch = t % 2 ^ 52
  | .hi t0 l => ∃ t1 t, t0 ≤ t1 ∧ t1 ≤ t ∧ t ≤ s.now ∧ s.latch = t % 2 ^ 52 ∧ l = t1 % 2 ^ 52 % 2 ^ 32

def Inv (s : St) : Prop := ∀ i, Good s (s.pc i)

theorem good_tick {s : St} {p : Pc} (h : Good s p) : Good { s with now := s.now + 1 } p := by
  cases p <;> simp only [Good] at h ⊢
  · exact ⟨by omega, fun hr => by obtain ⟨t, h1, h2, h3⟩ := h.2 hr; exact ⟨t, h1, by omega, h3⟩⟩
  · obtain ⟨t, h1, h2, h3⟩ := h; exact ⟨t, h1, by omega, h3⟩
  · obtain ⟨t1, t, h1, h2, h3, h4⟩ := h; exact ⟨t1, t, h1, h2, by omega, h4⟩

theorem good_sync {s : St} {p : Pc} (h : Good s p) : Good { s with req := false, latch := s.now % 2 ^ 52 } p := by
  cases p <;> simp only [Good] at h ⊢
  · exact ⟨h.1, fun _ => ⟨s.now, h.1, Nat.le_refl _, rfl⟩⟩
  · obtain ⟨t, h1, h2, h3⟩ := h; exact ⟨s.now, by omega, Nat.le_refl _, rfl⟩
  · obtain ⟨t1, t, h1, h2, h3, h4, h5⟩ := h; exact ⟨t1, s.now, h1, by omega, Nat.le_refl _, rfl, h5⟩

theorem good_req {s : St} {p : Pc} (h : Good s p) : Good { s with req := true } p := by
  cases p <;> simp only [Good] at h ⊢
  · exact ⟨h.1, by simp⟩
  · exact h
  · exact h

theorem good_pc {s : St} {p : Pc} {f : Nat → Pc} : Good { s with pc := f } p ↔ Good s p := by cases p <;> rfl

theorem inv_set {s : St} {i : Nat} {x : Pc} (h : ∀ j, Good s (s.pc j)) (hx : Good s x) : Inv { s with pc := set s.pc i x } := by
  intro j
  rw [good_pc]
  simp only [set]
  split
  · exact hx
  · exact h j

theorem inv_step {s s' : St} {a : Act} {e : Option Ret} (h : Inv s) (hs : step s a = some (s', e)) : Inv s' := by
  cases a with
  | tick => simp only [step, Option.some.injEq, Prod.mk.injEq] at hs; obtain ⟨rfl, -⟩ := hs; exact fun i => good_tick (h i)
  | sync =>
    simp only [step] at hs
    split at hs
    · simp only [Option.some.injEq, Prod.mk.injEq] at hs; obtain ⟨rfl, -⟩ := hs; exact fun i => good_sync (h i)
    · simp at hs
  | update i =>
    simp only [step] at hs
    split at hs
    · simp only [Option.some.injEq, Prod.mk.injEq] at hs
      obtain ⟨rfl, -⟩ := hs
      exact inv_set (s := { s with req := true }) (fun j => good_req (h j)) (by simp [Good])
    · simp at hs
  | valid i =>
    simp only [step] at hs
    split at hs
    · next t0 hp =>
      split at hs
      · simp at hs
      · next hr =>
        simp only [Option.some.injEq, Prod.mk.injEq] at hs
        obtain ⟨rfl, -⟩ := hs
        have := h i
        rw [hp] at this
        exact inv_set h (this.2 (by simpa using hr))
    · simp at hs
  | readLo i =>
    simp only [step] at hs
    split at hs
    · next t0 hp =>
      simp only [Option.some.injEq, Prod.mk.injEq] at hs
      obtain ⟨rfl, -⟩ := hs
      have := h i
      rw [hp] at this
      obtain ⟨t, h1, h2, h3⟩ := this
      exact inv_set h ⟨t, t, h1, Nat.le_refl _, h2, h3, by rw [h3]⟩
    · simp at hs
  | readHi i =>
    simp only [step] at hs
    split at hs
    · simp only [Option.some.injEq, Prod.mk.injEq] at hs
      obtain ⟨rfl, -⟩ := hs
      exact inv_set h trivial
    · simp at hs

theorem inv_exec {s s' : St} {as : List Act} {es : List Ret} (h : Inv s) (he : exec s as = some (s', es)) : Inv s' := by
  induction as generalizing s es with
  | nil => simp only [exec, Option.some.injEq, Prod.mk.injEq] at he; exact he.1 ▸ h
  | cons a as ih =>
    simp only [exec] at he
    split at he
    · simp at he
    · next s1 e hs =>
      split at he
      · simp at he
      · next s2 es2 hx =>
        simp only [Option.some.injEq, Prod.mk.injEq] at he
        obtain ⟨rfl, -⟩ := he
        exact ih (inv_step h hs) hx

theorem inv_init : Inv init := fun _ => trivial

/-- Inversion of a return. -/
theorem ret_inv {s s' : St} {a : Act} {r : Ret} (h : step s a = some (s', some r)) :
    ∃ l, a = .readHi r.caller ∧ s.pc r.caller = .hi r.t0 l ∧ r.value = l ||| ((s.latch / 2 ^ 32) <<< 32) ∧ s'.now = s.now := by
  cases a with
  | readHi i =>
    simp only [step] at h
    split at h
    · next t0 l hp =>
      simp only [Option.some.injEq, Prod.mk.injEq] at h
      obtain ⟨rfl, rfl⟩ := h
      exact ⟨l, rfl, hp, rfl, rfl⟩
    · simp at h
  | _ => simp only [step] at h; grind

/-- **C69** (full statement: `now` returns a value which the clock had during the call.) Whatever preempts the call: the value returned is never behind the clock at the start of the call, less than
`2^32` ticks (268 s) ahead of the clock at its end, and right if bit 32 of the clock did not change during the call. (For the 52 bits of the counter.) -/
theorem C69_now_bounds_partial {s s' : St} {a : Act} {r : Ret} (h : Reach s) (hs : step s a = some (s', some r)) (hb : s.now < 2 ^ 52) :
    r.t0 ≤ r.value ∧ r.value < s'.now + 2 ^ 32 ∧ (r.t0 / 2 ^ 32 = s'.now / 2 ^ 32 → r.value ≤ s'.now) := by
  obtain ⟨as, es, he⟩ := h
  obtain ⟨l, -, hp, hv, hn⟩ := ret_inv hs
  have hi := inv_exec inv_init he r.caller
  rw [hp] at hi
  obtain ⟨t1, t, h1, h2, h3, h4, rfl⟩ := hi
  rw [or_shift (Nat.mod_lt _ (by decide)), h4] at hv
  rw [hv, hn]
  omega

/-- What holds of call `i` while no other call requests a snapshot. -/
def Alone (s : St) (i t0 : Nat) : Prop :=
  (s.req = true ∧ s.pc i = .spin t0 ∧ t0 ≤ s.now) ∨
  (s.req = false ∧ ∃ t, t0 ≤ t ∧ t ≤ s.now ∧ s.latch = t % 2 ^ 52 ∧
    (s.pc i = .spin t0 ∨ s.pc i = .lo t0 ∨ s.pc i = .hi t0 (t % 2 ^ 52 % 2 ^ 32)))

theorem alone_step {s s' : St} {a : Act} {e : Option Ret} {i t0 : Nat} (h : Alone s i t0) (ha : ∀ j, a ≠ .update j) (hr : a ≠ .readHi i)
    (hs : step s a = some (s', e)) : Alone s' i t0 := by
  have pcset : ∀ {j : Nat} {x : Pc}, j ≠ i → set s.pc j x i = s.pc i := by intro j x hj; simp [set, Ne.symm hj]
  have same : ∀ {j : Nat} {x : Pc}, j ≠ i → Alone { s with pc := set s.pc j x } i t0 := by
    intro j x hj
    simp only [Alone, pcset hj]
    exact h
  cases a with
  | update j => exact absurd rfl (ha j)
  | tick =>
    simp only [step, Option.some.injEq, Prod.mk.injEq] at hs
    obtain ⟨rfl, -⟩ := hs
    rcases h with ⟨h1, h2, h3⟩ | ⟨h1, t, h2, h3, h4⟩
    · exact Or.inl ⟨h1, h2, Nat.le_succ_of_le h3⟩
    · exact Or.inr ⟨h1, t, h2, Nat.le_succ_of_le h3, h4⟩
  | sync =>
    simp only [step] at hs
    split at hs
    · next hq =>
      simp only [Option.some.injEq, Prod.mk.injEq] at hs
      obtain ⟨rfl, -⟩ := hs
      rcases h with ⟨h1, h2, h3⟩ | ⟨h1, -⟩
      · exact Or.inr ⟨rfl, s.now, h3, Nat.le_refl _, rfl, Or.inl h2⟩
      · rw [hq] at h1; simp at h1
    · simp at hs
  | valid j =>
    simp only [step] at hs
    split at hs
    · next t1 hp =>
      split at hs
      · simp at hs
      · next hq =>
        simp only [Option.some.injEq, Prod.mk.injEq] at hs
        obtain ⟨rfl, -⟩ := hs
        by_cases hj : j = i
        · subst hj
          rcases h with ⟨h1, -⟩ | ⟨h1, t, h2, h3, h4, h5⟩
          · exact absurd h1 hq
          · rw [hp] at h5
            have : t1 = t0 := by simpa using h5
            subst this
            exact Or.inr ⟨h1, t, h2, h3, h4, Or.inr (Or.inl (by simp [set]))⟩
        · exact same hj
    · simp at hs
  | readLo j =>
    simp only [step] at hs
    split at hs
    · next t1 hp =>
      simp only [Option.some.injEq, Prod.mk.injEq] at hs
      obtain ⟨rfl, -⟩ := hs
      by_cases hj : j = i
      · subst hj
        rcases h with ⟨-, h1, -⟩ | ⟨h1, t, h2, h3, h4, h5⟩
        · rw [hp] at h1; simp at h1
        · rw [hp] at h5
          have : t1 = t0 := by simpa using h5
          subst this
          exact Or.inr ⟨h1, t, h2, h3, h4, Or.inr (Or.inr (by simp [set, h4]))⟩
      · exact same hj
    · simp at hs
  | readHi j =>
    simp only [step] at hs
    split at hs
    · simp only [Option.some.injEq, Prod.mk.injEq] at hs
      obtain ⟨rfl, -⟩ := hs
      exact same (fun hj => hr (by rw [hj]))
    · simp at hs

/-- **C69** (full statement: `now` returns a value which the clock had during the call.) It does if no other call of `now` begins during this one: from the start of call `i` through any actions
without another request (ticks, the ends of other calls) to its return. -/
theorem C69_now_undisturbed_partial {s s' : St} {i : Nat} {as : List Act} {es : List Ret} {r : Ret} (hi : s.pc i = .idle)
    (ha : ∀ a ∈ as, (∀ j, a ≠ .update j) ∧ a ≠ .readHi i)
    (he : exec s (.update i :: as ++ [.readHi i]) = some (s', es ++ [r])) (hb : s'.now < 2 ^ 52) :
    r.caller = i ∧ s.now ≤ r.value ∧ r.value ≤ s'.now := by
  obtain ⟨s1, e1, e2, h1, h2, h3⟩ := exec_append he
  have key : ∀ (as : List Act) (s s1 : St) (e1 : List Ret) (t0 : Nat), (∀ a ∈ as, (∀ j, a ≠ .update j) ∧ a ≠ .readHi i) → Alone s i t0 →
      exec s as = some (s1, e1) → Alone s1 i t0 := by
    intro as
    induction as with
    | nil => intro s s1 e1 t0 _ h he; simp only [exec, Option.some.injEq, Prod.mk.injEq] at he; exact he.1 ▸ h
    | cons a as ih =>
      intro s s1 e1 t0 ha h he
      simp only [exec] at he
      split at he
      · simp at he
      · next s2 e hs =>
        split at he
        · simp at he
        · next s3 es3 hx =>
          simp only [Option.some.injEq, Prod.mk.injEq] at he
          obtain ⟨rfl, -⟩ := he
          have h0 := ha a (by simp)
          exact ih s2 _ es3 t0 (fun b hb => ha b (by simp [hb])) (alone_step h h0.1 h0.2 hs) hx
  simp only [exec, step, hi] at h1
  split at h1
  · simp at h1
  next s2 es2 hx =>
  simp only [Option.some.injEq, Prod.mk.injEq] at h1
  obtain ⟨rfl, -⟩ := h1
  have hal := key as { s with req := true, pc := set s.pc i (.spin s.now) } _ _ s.now ha (Or.inl ⟨rfl, by simp [set], Nat.le_refl _⟩) hx
  simp only [exec] at h2
  split at h2
  · simp at h2
  next s3 e3 hs =>
  simp only [List.append_nil, Option.some.injEq, Prod.mk.injEq] at h2
  obtain ⟨rfl, rfl⟩ := h2
  have he3 : e3 = some r := by
    cases e3 with
    | none => simp only [step] at hs; split at hs <;> simp at hs
    | some r' =>
      simp only [Option.toList] at h3
      have := congrArg List.getLast? h3
      simp at this
      rw [this]
  subst he3
  obtain ⟨l, hc, hp, hv, hn⟩ := ret_inv hs
  have hci : r.caller = i := by simpa using hc.symm
  rw [hci] at hp
  refine ⟨hci, ?_⟩
  rcases hal with ⟨-, h, -⟩ | ⟨-, t, g1, g2, g3, g4⟩
  · rw [hp] at h; simp at h
  rw [hp] at g4
  rcases g4 with h | h | h
  · simp at h
  · simp at h
  simp only [Pc.hi.injEq] at h
  obtain ⟨-, rfl⟩ := h
  rw [or_shift (Nat.mod_lt _ (by decide)), g3] at hv
  rw [hv]
  omega

theorem exec_ticks {s : St} (n : Nat) : exec s (List.replicate n .tick) = some ({ s with now := s.now + n }, []) := by
  induction n generalizing s with
  | zero => rfl
  | succ n ih => simp only [List.replicate_succ, exec, step, ih]; simp [Nat.add_comm, Nat.add_left_comm]

theorem exec_comp {s s1 s2 : St} {as bs : List Act} {e1 e2 : List Ret} (h1 : exec s as = some (s1, e1)) (h2 : exec s1 bs = some (s2, e2)) :
    exec s (as ++ bs) = some (s2, e1 ++ e2) := by
  induction as generalizing s e1 with
  | nil => simp only [exec, Option.some.injEq, Prod.mk.injEq] at h1; obtain ⟨rfl, rfl⟩ := h1; exact h2
  | cons a as ih =>
    simp only [exec] at h1
    split at h1
    · simp at h1
    · next s3 e3 hs =>
      split at h1
      · simp at h1
      · next s4 e4 hx =>
        simp only [Option.some.injEq, Prod.mk.injEq] at h1
        obtain ⟨rfl, rfl⟩ := h1
        simp only [List.cons_append, exec, hs, ih hx]
        simp

/-- **C69** violated: a call of `now` is preempted between reading the two halves by another call (such as the timer interrupt handler), which takes a new snapshot, and the low half wraps in
between. The preempted call returns a value `2^32 - 1` ticks ahead of the clock; the next call, begun later, returns an earlier value. -/
theorem C69_now_violated :
    ∃ as s es, exec init as = some (s, es) ∧ s.now = 2 ^ 32 ∧
      es = [⟨1, 2 ^ 32, 2 ^ 32⟩, ⟨0, 2 ^ 32 - 1, 2 ^ 33 - 1⟩, ⟨0, 2 ^ 32, 2 ^ 32⟩] := by
  refine ⟨List.replicate (2 ^ 32 - 1) .tick ++ [.update 0, .sync, .valid 0, .readLo 0, .tick, .update 1, .sync, .valid 1, .readLo 1, .readHi 1, .readHi 0,
    .update 0, .sync, .valid 0, .readLo 0, .readHi 0], ?_⟩
  refine ⟨_, _, exec_comp (exec_ticks _) rfl, ?_, ?_⟩
  · rfl
  · decide

/-- **C69** violated: the counter has 52 bits but the tick type 64 (`type Ticks = u64`, `esp32c3.rs:81`): an undisturbed call just after `2^52` ticks (about 8.9 years) returns 0. -/
theorem C69_now_wraps_violated {s : St} (h : s.now = 2 ^ 52) (hp : s.pc 0 = .idle) :
    ∃ s', exec s [.update 0, .sync, .valid 0, .readLo 0, .readHi 0] = some (s', [⟨0, 2 ^ 52, 0⟩]) := by
  simp [exec, step, set, h, hp]

/-- The hypotheses are met: two calls one after the other, with another call ending during the first. -/
example : ∃ s es, exec init [.tick, .update 1, .sync, .valid 1, .tick, .update 0, .tick, .sync, .readLo 1, .valid 0, .readHi 1, .tick, .readLo 0, .readHi 0] = some (s, es) ∧
    es = [⟨1, 1, 3⟩, ⟨0, 2, 3⟩] ∧ s.now = 4 := by
  refine ⟨_, _, rfl, ?_, ?_⟩ <;> decide

end Verif.Systimer
