import Verif.Race.Own
import Verif.Arbiter.Props

/-!
# The memory accesses of the arbiter

The machine of `Verif.Arbiter.Model` with the accesses of the holders of tokens to the protected value added, and the
non-atomic memory accesses of every step. `taken` and the fields `next`, `prev`, `is_popped` of a link are atomics (with
relaxed accesses); touching a link is recorded as a read of the link. Every client is a thread of its own.
-/

namespace Verif.Race.Arbiter

open Verif.Arbiter Verif.Race

/-- The non-atomic memory: `inner` (`arbiter.rs:56`) and the links of the `access` futures (`arbiter.rs:76`). -/
inductive Loc where
  | inner
  | link (i : Nat)
deriving DecidableEq, Repr

/-- The lock of `critical_section`. -/
def cs : Nat := 0

/-- What the scheduler can choose: a step of the arbiter, or an access of client `i` to the value through its token. -/
inductive MAct where
  | act (a : Act)
  | use (i : Nat) (write : Bool)
deriving DecidableEq, Repr

/-- The `dropper` of `access`, `arbiter.rs:83-90`: the option is read, a link is removed in a critical section, and the
local variable ends. -/
def emitDrop (s : St) (i : Nat) : List (MEv Loc) :=
  naEv i [.link i] [] ::
    ((if (s.lk i).isSome then [csEv cs i (.link i :: s.wq.map .link) []] else []) ++ [naEv i [] [.link i]])

/-- The memory accesses of one step. -/
def emit (s : St) : Act → List (MEv Loc)
  -- `arbiter.rs:76`
  | .access i => [naEv i [] [.link i]]
  -- `arbiter.rs:93-124`
  | .poll i _ => [csEv cs i (s.wq.map .link) [.link i]]
  -- `arbiter.rs:129`
  | .fin i => emitDrop s i
  | .cancel i => emitDrop s i
  -- `arbiter.rs:141-156`
  | .tryAccess i => [csEv cs i [] []]
  -- `arbiter.rs:168-178`
  | .dropTok i => [csEv cs i (s.wq.map .link) []]

/-- One step with its memory accesses. A token gives access to the value: `Deref`, `DerefMut`, `arbiter.rs:182-194`. -/
def mstep (s : St) : MAct → Option (St × List (MEv Loc))
  | .act a =>
    match step s a with
    | some (s1, _) => some (s1, emit s a)
    | none => none
  | .use i w =>
    match s.pc i with
    | .token => some (s, [naEv i (if w then [] else [.inner]) (if w then [.inner] else [])])
    | _ => none

/-- The memory events of an execution. -/
def trace (s : St) : List MAct → List (MEv Loc)
  | [] => []
  | a :: as =>
    match mstep s a with
    | none => []
    | some (s1, e) => e ++ trace s1 as

/-! ## The invariant -/

/-- Which client may access what. -/
def mode (s : St) (own : Option Nat) : Loc → Mode
  | .inner =>
    match own with
    | some i => if s.pc i = .fut then .sh else .own i
    | none => .sh
  | .link i => if s.lk i = none then .own i else .shw i

theorem wq_lk {s : St} {own} (h : Inv s own) {k : Nat} (hk : k ∈ s.wq) : s.lk k ≠ none := by
  obtain ⟨_, l, hl, _⟩ := (h.mem k).1 hk
  simp [hl]

/-- a critical section of client `i` that touches the links of waiting clients and possibly its own link -/
theorem disc_link {s s' : St} {own own'} {tr : List (MEv Loc)} {i : Nat} {rd wr : List Loc} (h : Inv s own)
    (hd : Disc tr cs (mode s own)) (hrd : ∀ l ∈ rd, l = .link i ∨ ∃ k ∈ s.wq, l = .link k) (hwr : ∀ l ∈ wr, l = .link i)
    (hlk : ∀ j, j ≠ i → (s'.lk j = none ↔ s.lk j = none))
    (hin : mode s' own' .inner = mode s own .inner ∨ ((mode s own .inner).near i ∧ (mode s' own' .inner).near i)) :
    Disc (tr ++ [csEv cs i rd wr]) cs (mode s' own') := by
  refine disc_cs hd (fun l => ?_)
  cases l with
  | inner =>
    have h1 : Loc.inner ∉ wr := fun h1 => by have := hwr _ h1; cases this
    have h2 : Loc.inner ∉ rd := fun h2 => by rcases hrd _ h2 with h3 | ⟨k, _, h3⟩ <;> cases h3
    rcases hin with h3 | ⟨h3, h4⟩
    · exact .inr ⟨h3, h1, fun h4 => absurd h4 h2⟩
    · refine .inl ⟨h3, h4, ?_⟩
      simp only [mode]; split <;> (try split) <;> simp
  | link j =>
    by_cases hj : j = i
    · subst hj
      refine .inl ⟨?_, ?_, ?_⟩ <;> simp only [mode] <;> split <;> simp [Mode.near]
    · refine .inr ⟨?_, ?_, fun h1 => ?_⟩
      · simp only [mode, hlk j hj]
      · intro h1; have := hwr _ h1; simp at this; exact hj this
      · rcases hrd _ h1 with h2 | ⟨k, hk, h2⟩
        · simp at h2; exact absurd h2 hj
        · simp at h2; subst h2
          have := wq_lk h hk
          exact ⟨j, by simp [mode, this]⟩

/-- client `i` touches its own link, which is not in the list -/
theorem disc_own {s : St} {own} {tr : List (MEv Loc)} {i : Nat} {rd wr : List Loc}
    (hd : Disc tr cs (mode s own)) (hl : s.lk i = none) (hw : ∀ l ∈ rd ++ wr, l = .link i) :
    Disc (tr ++ [naEv i rd wr]) cs (mode s own) := by
  refine disc_na hd (fun l => .inl ⟨rfl, ?_⟩)
  by_cases h : l = .link i
  · subst h; exact .inl (by simp [mode, hl])
  · exact .inr ⟨fun h1 => h (hw l (by simp [h1])), .inl (fun h1 => h (hw l (by simp [h1])))⟩

/-- client `i` reads its own link before it removes it -/
theorem disc_look {s : St} {own} {tr : List (MEv Loc)} {i : Nat} (hd : Disc tr cs (mode s own)) (hl : s.lk i ≠ none) :
    Disc (tr ++ [naEv i [.link i] []]) cs (fun l => if l = .link i then .looked i else mode s own l) := by
  refine disc_na hd (fun l => ?_)
  by_cases h : l = .link i
  · subst h; exact .inr ⟨by simp [mode, hl], by simp, by simp⟩
  · exact .inl ⟨by simp [h], .inr ⟨by simp, .inl (by simpa using h)⟩⟩

/-- the `dropper` -/
theorem disc_drop {s s' : St} {own own'} {tr : List (MEv Loc)} {i : Nat} (h : Inv s own) (hd : Disc tr cs (mode s own))
    (hlk : ∀ j, j ≠ i → s'.lk j = s.lk j) (hli : s'.lk i = none)
    (hin : mode s' own' .inner = mode s own .inner) : Disc (tr ++ emitDrop s i) cs (mode s' own') := by
  unfold emitDrop
  have hsame : s.lk i = none → mode s' own' = mode s own := by
    intro hl
    funext l
    cases l with
    | inner => exact hin
    | link j =>
      by_cases hj : j = i
      · subst hj; simp [mode, hl, hli]
      · simp [mode, hlk j hj]
  by_cases hl : s.lk i = none
  · rw [hsame hl]
    simp only [hl, Option.isSome_none, Bool.false_eq_true, if_false, List.nil_append]
    have h1 := disc_own (rd := [.link i]) (wr := []) hd hl (by simp)
    have h2 := disc_own (rd := []) (wr := [.link i]) h1 hl (by simp)
    simpa using h2
  · have h1 := disc_look hd hl
    have hs : (s.lk i).isSome = true := by cases hx : s.lk i with
      | none => exact absurd hx hl
      | some l => rfl
    simp only [hs, if_true]
    have h2 : Disc (tr ++ [naEv i [.link i] []] ++ [csEv cs i (.link i :: s.wq.map Loc.link) []]) cs (mode s' own') := by
      refine disc_cs h1 (fun l => ?_)
      by_cases hli' : l = .link i
      · subst hli'
        exact .inl ⟨by simp [Mode.near], by simp [mode, hli, Mode.near], by simp [mode, hli]⟩
      · refine .inr ⟨?_, by simp, fun h3 => ?_⟩
        · simp only [hli', if_false]
          cases l with
          | inner => exact hin
          | link j => simp only [mode, hlk j (by rintro rfl; exact hli' rfl)]
        · rcases List.mem_cons.1 h3 with h3 | h3
          · exact absurd h3 hli'
          · obtain ⟨k, hk, rfl⟩ := List.mem_map.1 h3
            exact ⟨k, by simp only [hli', if_false]; simp [mode, wq_lk h hk]⟩
    have h3 := disc_own (rd := []) (wr := [.link i]) h2 hli (by simp)
    simpa using h3

/-- only a running `access` has a link -/
def LkPc (s : St) : Prop := ∀ i, s.lk i ≠ none → s.pc i = .fut ∨ s.pc i = .got

theorem lkPc_step {s s' : St} {own} {a : Act} {e} (h : Inv s own) (hl : LkPc s) (hs : step s a = some (s', e)) : LkPc s' := by
  intro j hj
  have h1 := hl j
  cases tr_of_step hs with
  | dropHand i k q l hp hq hk =>
    have h2 := (h.mem k).1 (by simp [hq])
    by_cases hjk : j = k
    · subst hjk
      have hji : j ≠ i := by rintro rfl; rw [hp] at h2; cases h2.1
      simp [Verif.Arbiter.set, hji, h2.1]
    · have : s.lk j ≠ none := by simpa [Verif.Arbiter.set, hjk] using hj
      have := h1 this
      by_cases hji : j = i
      · subst hji; rw [hp] at this; simp at this
      · simpa [Verif.Arbiter.set, hji] using this
  | _ => grind

theorem disc_step {s s' : St} {own} {a : Act} {e} {tr : List (MEv Loc)} (h : Inv s own) (hlp : LkPc s)
    (hd : Disc tr cs (mode s own)) (hs : step s a = some (s', e)) : ∃ own', Inv s' own' ∧ Disc (tr ++ emit s a) cs (mode s' own') := by
  obtain ⟨own', h'⟩ := inv_step h hs
  refine ⟨own', h', ?_⟩
  have ho := h.own; have ho' := h'.own
  -- an owner in state `fut` is shared, any other owner is exclusive
  have hm : ∀ j, (s.pc j = .token ∨ s.pc j = .got) → mode s own .inner = .own j := by
    intro j hj
    have := (ho j).2 (by grind)
    simp only [mode, this]; grind
  have hm' : ∀ j, (s'.pc j = .token ∨ s'.pc j = .got) → mode s' own' .inner = .own j := by
    intro j hj
    have := (ho' j).2 (by grind)
    simp only [mode, this]; grind
  have hn : (∀ j, s.pc j ≠ .token ∧ s.pc j ≠ .got) → mode s own .inner = .sh := by
    intro hj
    simp only [mode]
    cases hx : own with
    | none => rfl
    | some k => have := (ho k).1 hx; have := hj k; grind
  have hn' : (∀ j, s'.pc j ≠ .token ∧ s'.pc j ≠ .got) → mode s' own' .inner = .sh := by
    intro hj
    simp only [mode]
    cases hx : own' with
    | none => rfl
    | some k => have := (ho' k).1 hx; have := hj k; grind
  have hex : ∀ (f : Nat → Pc), (∃ j, f j = .token ∨ f j = .got) ∨ ∀ j, f j ≠ .token ∧ f j ≠ .got := by
    intro f
    by_cases h : ∃ j, f j = .token ∨ f j = .got
    · exact .inl h
    · exact .inr (fun j => ⟨fun h1 => h ⟨j, .inl h1⟩, fun h1 => h ⟨j, .inr h1⟩⟩)
  -- the set of exclusive owners is unchanged
  have hsame : (∀ j, (s'.pc j = .token ∨ s'.pc j = .got) ↔ (s.pc j = .token ∨ s.pc j = .got)) →
      mode s' own' .inner = mode s own .inner := by
    intro hj
    rcases hex s.pc with ⟨k, hk⟩ | hk
    · rw [hm k hk, hm' k ((hj k).2 hk)]
    · rw [hn hk, hn' (fun j => by have := hk j; have := hj j; grind)]
  have hfree : s.taken = false → mode s own .inner = .sh := by
    intro ht
    cases hx : own with
    | none => rfl
    | some k => have := h.otaken (by simp [hx]); rw [ht] at this; cases this
  cases tr_of_step hs with
  | access i hp =>
    have hl : s.lk i = none := by
      cases hx : s.lk i with
      | none => rfl
      | some l => have := hlp i (by simp [hx]); rw [hp] at this; simp at this
    have hmo : mode { s with pc := set s.pc i .fut, lk := set s.lk i none } own' = mode s own := by
      funext l
      cases l with
      | inner => exact hsame (fun j => by by_cases hj : j = i <;> grind)
      | link j => by_cases hj : j = i <;> simp [mode, Verif.Arbiter.set, hj, hl]
    rw [hmo]
    exact disc_own hd hl (by simp)
  | pollFree i w hp hq ht =>
    refine disc_link h hd (by simp [hq]) (by simp) (fun j hj => Iff.rfl) (.inr ⟨?_, ?_⟩)
    · rw [hfree ht]; trivial
    · rw [hm' i (by simp)]; rfl
  | pollGrant i w l hp hc hl hpop =>
    refine disc_link h hd (fun x hx => .inr ?_) (by simp) (fun j hj => Iff.rfl) (.inr ⟨?_, ?_⟩)
    · obtain ⟨k, hk, rfl⟩ := List.mem_map.1 hx; exact ⟨k, hk, rfl⟩
    · have := (ho i).2 (.inr (.inr ⟨hp, l, hl, hpop⟩))
      simp [mode, this, hp, Mode.near]
    · rw [hm' i (by simp)]; rfl
  | pollStay i w l hp hc hl hpop =>
    refine disc_link h hd (fun x hx => .inr ?_) (by simp) (fun j hj => Iff.rfl) (.inl (hsame (fun j => Iff.rfl)))
    obtain ⟨k, hk, rfl⟩ := List.mem_map.1 hx; exact ⟨k, hk, rfl⟩
  | pollWait i w hp hc hl =>
    refine disc_link h hd (fun x hx => .inr ?_) (by simp) (fun j hj => by simp [Verif.Arbiter.set, hj]) (.inl (hsame (fun j => Iff.rfl)))
    obtain ⟨k, hk, rfl⟩ := List.mem_map.1 hx; exact ⟨k, hk, rfl⟩
  | fin i hp =>
    exact disc_drop h hd (fun j hj => by simp [Verif.Arbiter.set, hj]) (by simp)
      (hsame (fun j => by by_cases hj : j = i <;> grind))
  | cancel i hp =>
    exact disc_drop h hd (fun j hj => by simp [Verif.Arbiter.set, hj]) (by simp)
      (hsame (fun j => by by_cases hj : j = i <;> grind))
  | tryOk i hp hq ht =>
    refine disc_link h hd (by simp) (by simp) (fun j hj => Iff.rfl) (.inr ⟨?_, ?_⟩)
    · rw [hfree ht]; trivial
    · rw [hm' i (by simp)]; rfl
  | tryFail i hp hc =>
    exact disc_link h hd (by simp) (by simp) (fun j hj => Iff.rfl) (.inl (hsame (fun j => Iff.rfl)))
  | dropFree i hp hq =>
    refine disc_link h hd (by simp [hq]) (by simp) (fun j hj => Iff.rfl) (.inr ⟨?_, ?_⟩)
    · rw [hm i (.inl hp)]; rfl
    · have hu : ∀ j, (s.pc j = .token ∨ s.pc j = .got) → j = i := by
        intro j hj
        have h1 := (ho j).2 (by grind); have h2 := (ho i).2 (.inl hp)
        rw [h1] at h2; cases h2; rfl
      rw [hn' (fun j => by by_cases hj : j = i <;> grind)]; trivial
  | dropHand i j q l hp hq hl =>
    refine disc_link h hd (fun x hx => .inr ?_) (by simp) (fun k hk => ?_) (.inr ⟨?_, ?_⟩)
    · obtain ⟨k, hk, rfl⟩ := List.mem_map.1 hx; exact ⟨k, hk, rfl⟩
    · by_cases hkj : k = j <;> simp [Verif.Arbiter.set, hkj, hl]
    · rw [hm i (.inl hp)]; rfl
    · have hu : ∀ j, (s.pc j = .token ∨ s.pc j = .got) → j = i := by
        intro j hj
        have h1 := (ho j).2 (by grind); have h2 := (ho i).2 (.inl hp)
        rw [h1] at h2; cases h2; rfl
      rw [hn' (fun j => by by_cases hj : j = i <;> grind)]; trivial

theorem disc_trace : ∀ (as : List MAct) (s : St) (own : Option Nat) (tr : List (MEv Loc)), Inv s own → LkPc s →
    Disc tr cs (mode s own) → RaceFree (tr ++ trace s as)
  | [], s, own, tr, _, _, hd => by simpa [trace] using hd.rf
  | a :: as, s, own, tr, h, hlp, hd => by
    simp only [trace]
    split
    · simpa using hd.rf
    · rename_i s1 e hs
      rw [← List.append_assoc]
      cases a with
      | act a =>
        simp only [mstep] at hs
        split at hs
        · rename_i s2 e2 hs2
          cases hs
          obtain ⟨own', h', hd'⟩ := disc_step h hlp hd hs2
          exact disc_trace as s1 own' _ h' (lkPc_step h hlp hs2) hd'
        · cases hs
      | use i w =>
        simp only [mstep] at hs
        split at hs
        · rename_i hp
          cases hs
          refine disc_trace as _ own _ h hlp (disc_na hd (fun l => .inl ⟨rfl, ?_⟩))
          cases l with
          | inner =>
            have := (h.own i).2 (.inl hp)
            exact .inl (by simp [mode, this, hp])
          | link j => exact .inr ⟨by cases w <;> simp, .inl (by cases w <;> simp)⟩
        · cases hs

/-- C111. Whatever the clients of an arbiter do, however their steps interleave and on whatever threads or cores they run:
the accesses to the protected value through the tokens, and those to the links of waiting futures, are free of data races.
The only synchronisation used is that of `critical_section`; all atomics are accessed with relaxed ordering. -/
theorem C111_arbiter_race_free (as : List MAct) : RaceFree (trace init as) := by
  simpa using disc_trace as init none [] inv_init (by intro i hi; simp [init] at hi) (disc_nil _ _)

/-! ### The theorem is not vacuous -/

/-- Client 0 writes the value, hands it to the waiting client 1, which reads and writes it. -/
example : trace init [.act (.tryAccess 0), .use 0 true, .act (.access 1), .act (.poll 1 5), .act (.dropTok 0),
    .act (.poll 1 5), .act (.fin 1), .use 1 false, .use 1 true] =
    [csEv cs 0 [] [], naEv 0 [] [.inner], naEv 1 [] [.link 1], csEv cs 1 [] [.link 1], csEv cs 0 [.link 1] [],
     csEv cs 1 [] [.link 1], naEv 1 [.link 1] [], csEv cs 1 [.link 1] [], naEv 1 [] [.link 1], naEv 1 [.inner] [],
     naEv 1 [] [.inner]] := by decide +kernel

end Verif.Race.Arbiter
