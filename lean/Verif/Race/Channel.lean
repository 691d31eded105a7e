import Verif.Race.Hb
import Verif.Channel.Inv2

/-!
# The memory accesses of the channel

`emit` lists the non-atomic memory accesses of one step of the machine of `Verif.Channel.Model`, in the order of the source,
and says which of them are inside a critical section. Every sender and the receiver is a thread of its own (the tasks that
own them may run on different cores; moving one of them to another task is synchronised by whatever moves it).

Simplifications: a critical section is one event, with all the locations it may access (more than it accesses on some paths,
which can only add conflicts); the atomic fields of a link (`next`, `prev`, `is_popped`) cannot race, but touching a link is
recorded as a read of the link, so that it conflicts with the creation and the end of the link; the locals of `send` end
right after the `dropper` has run (they are not used after that); the initialisation by `split` is before everything.
-/

namespace Verif.Race.Channel

open Verif.Channel Verif.Race

variable {T : Type}

/-- The non-atomic memory of a channel, `channel.rs:32-47`, and of its `send` futures, `channel.rs:391-392`. -/
inductive Loc where
  | slot (x : Nat)
  | freeq
  | readyq
  | receiverDropped
  | numSenders
  | receiverWaker
  /-- `link_ptr` of the `send` of sender `i` -/
  | link (i : Nat)
  /-- `free_slot_ptr` of the `send` of sender `i` -/
  | slotPtr (i : Nat)
deriving DecidableEq, Repr

/-- The thread of sender `i`. -/
def S (i : Nat) : Nat := i + 1

/-- The thread of the receiver. -/
def R : Nat := 0

/-- The lock of `critical_section`. -/
def cs : Nat := 0

/-- `return_free_slot`, `channel.rs:155-176`, run by thread `t`: pops a link (its value is cloned, its neighbours are
relinked) and writes the slot pointer found in it, or pushes to `freeq`. -/
def retEv (s : St T) (t : Nat) : MEv Loc :=
  csEv cs t (s.wq.map .link) (.freeq :: (s.wq.take 1).map .slotPtr)

/-- The accesses of the next step of the operation of sender `i`. -/
def emitS (s : St T) (i : Nat) : List (MEv Loc) :=
  match s.snd i with
  | .absent | .idle | .snd _ => []
  -- `channel.rs:363`: an atomic load
  | .try0 _ => []
  -- `channel.rs:368`
  | .try1 _ => [csEv cs (S i) [.receiverDropped] []]
  -- `channel.rs:372-375`
  | .try2 _ => [csEv cs (S i) [] [.freeq]]
  -- `channel.rs:406-408`: the option is read before the critical section of `remove_from_list`
  | .drop0 _ _ =>
    naEv (S i) [.link i] [] ::
      (if (s.lk i).isSome then [csEv cs (S i) (.link i :: s.wq.map .link) []] else [])
  -- `channel.rs:413-418`: `replace_exclusive` is outside of any critical section; then the end of the locals
  | .drop1 _ _ =>
    naEv (S i) [] [.slotPtr i] ::
      ((if (s.sl i).isSome then [retEv s (S i)] else []) ++ [naEv (S i) [] [.link i, .slotPtr i]])
  -- `channel.rs:336-340`
  | .hold _ x => [naEv (S i) [] [.slot x]]
  -- `channel.rs:343-352`
  | .written _ _ => [csEv cs (S i) [] [.readyq]]
  -- `channel.rs:357`, `channel.rs:543`
  | .pushed | .dropW => [csEv cs (S i) [] [.receiverWaker]]

/-- The accesses of the next step of the operation of the receiver. -/
def emitR (s : St T) : List (MEv Loc) :=
  match s.rx with
  | .idle | .pend _ | .gone => []
  -- `channel.rs:624`
  | .poll0 _ => [csEv cs R [] [.receiverWaker]]
  -- `channel.rs:593-596`
  | .tr0 _ => [csEv cs R [] [.readyq]]
  -- `channel.rs:602`, `channel.rs:180-184`
  | .got _ x => [naEv R [.slot x] []]
  -- `channel.rs:607`
  | .rd _ _ _ => [retEv s R]
  -- `channel.rs:610`
  | .empty _ => [csEv cs R [.numSenders] []]
  -- `channel.rs:670-673`
  | .drop0 => [csEv cs R [] [.receiverDropped]]
  -- `channel.rs:675-682`
  | .drop1 => [csEv cs R [] [.readyq]]
  -- `channel.rs:685`
  | .dgot x => [naEv R [.slot x] []]
  -- `channel.rs:688`
  | .drop2 => [csEv cs R (s.wq.map .link) []]

/-- The memory accesses of one step. -/
def emit (s : St T) (a : Act T) : List (MEv Loc) :=
  match a with
  -- `channel.rs:549-558`
  | .clone i _ => [csEv cs (S i) [] [.numSenders]]
  -- `channel.rs:529-540`
  | .dropS i => [csEv cs (S i) [] [.numSenders]]
  | .startTry _ _ => []
  -- `channel.rs:391-392`
  | .startSend i _ => [naEv (S i) [] [.link i, .slotPtr i]]
  -- `channel.rs:423-488`
  | .poll i _ => [csEv cs (S i) (.receiverDropped :: s.wq.map .link) [.freeq, .link i, .slotPtr i]]
  | .cancel _ => []
  | .go i => emitS s i
  -- `channel.rs:505-526`
  | .sQuery i => [csEv cs (S i) [.receiverDropped, .freeq] []]
  | .startTryRecv | .pollRecv _ | .cancelRecv | .dropR => []
  | .goR => emitR s
  -- `channel.rs:643-664`
  | .rQuery => [csEv cs R [.numSenders, .readyq] []]

/-- The memory events of an execution. -/
def trace (n : Nat) (s : St T) : List (Act T) → List (MEv Loc)
  | [] => []
  | a :: as =>
    match step n s a with
    | none => []
    | some (s1, _) => emit s a ++ trace n s1 as

/-! ## The invariant -/

/-- Every event that touched `l` happens before the next critical section of thread `t`. -/
def Mixed (tr : List (MEv Loc)) (t : Nat) (l : Loc) : Prop :=
  ∀ i a, tr[i]? = some a → a.touches l → Rel tr cs i ∨ Seen tr t i

/-- The slot index `x` is in a queue or on its way to a waiting sender. -/
@[grind] def Shared (s : St T) (x : Nat) : Prop := x ∈ s.free ∨ x ∈ s.ready ∨ ∃ i, s.sl i = some x

/-- Who may access what next. `ex` is the sender that has looked at its link and is about to remove it. -/
structure InvX (s : St T) (tr : List (MEv Loc)) (ex : Option Nat) : Prop where
  rf : RaceFree tr
  held : ∀ i x, (s.snd i).held = some x → AllSeen tr (S i) (.slot x)
  rx : ∀ x, s.rx.held = some x → AllSeen tr R (.slot x)
  sh : ∀ x, Shared s x → AllRel tr cs (.slot x)
  own : ∀ i, s.lk i = none → AllSeen tr (S i) (.link i) ∧ AllSeen tr (S i) (.slotPtr i)
  lk : ∀ i, (s.lk i).isSome → AllRel tr cs (.slotPtr i) ∧ (ex ≠ some i → AllRel tr cs (.link i))
  mix : ∀ i, ex = some i → Mixed tr (S i) (.link i)
  lkw : ∀ i, WrSeen tr (S i) (.link i)
  q : ∀ l, l = .freeq ∨ l = .readyq ∨ l = .receiverDropped ∨ l = .numSenders ∨ l = .receiverWaker → AllRel tr cs l

def Loc.isSlot : Loc → Bool
  | .slot _ => true
  | _ => false

/-- What a critical section of thread `t` may do to the state. -/
structure Moves (t : Nat) (s s' : St T) (rd wr : List Loc) : Prop where
  held : ∀ i x, (s'.snd i).held = some x → (s.snd i).held = some x ∨ (S i = t ∧ Shared s x)
  rx : ∀ x, s'.rx.held = some x → s.rx.held = some x ∨ (R = t ∧ Shared s x)
  sh : ∀ x, Shared s' x → Shared s x ∨ (∃ i, S i = t ∧ (s.snd i).held = some x) ∨ (R = t ∧ s.rx.held = some x)
  own : ∀ i, s'.lk i = none → S i = t ∨ (s.lk i = none ∧ Loc.link i ∉ rd ++ wr ∧ Loc.slotPtr i ∉ rd ++ wr)
  lk : ∀ i, (s'.lk i).isSome → (s.lk i).isSome ∨ S i = t

theorem S_inj {i j : Nat} : S i = S j ↔ i = j := by simp [S]

theorem inv_cs {s s' : St T} {tr : List (MEv Loc)} {ex : Option Nat} {t : Nat} {rd wr : List Loc}
    (h : InvX s tr ex) (hex : ∀ i, ex = some i → t = S i)
    (hslot : ∀ l ∈ rd ++ wr, l.isSlot = false) (hlw : ∀ i, Loc.link i ∈ wr → t = S i)
    (hrd : ∀ l ∈ rd, WrSeen tr t l ∨ AllRel tr cs l) (hwr : ∀ l ∈ wr, AllSeen tr t l ∨ AllRel tr cs l)
    (m : Moves t s s' rd wr) : InvX s' (tr ++ [csEv cs t rd wr]) none := by
  obtain ⟨rf, held, rx, sh, own, lk, mix, lkw, q⟩ := h
  obtain ⟨m1, m2, m3, m4, m5⟩ := m
  have hsl : ∀ x, ¬ (csEv cs t rd wr).touches (.slot x) := by
    intro x hx
    have := hslot (.slot x) (by simpa [csEv, MEv.touches] using hx)
    simp [Loc.isSlot] at this
  have kA : ∀ u l, AllSeen tr u l → ¬ (csEv cs t rd wr).touches l → AllSeen (tr ++ [csEv cs t rd wr]) u l :=
    fun u l h hn => allSeen_snoc h (fun h2 => absurd h2 hn)
  have mine : ∀ l, AllSeen tr t l → AllSeen (tr ++ [csEv cs t rd wr]) t l ∧ AllRel (tr ++ [csEv cs t rd wr]) cs l :=
    fun l h => ⟨allSeen_snoc h (fun _ => rfl), allRel_of_seen (e := csEv cs t rd wr) h (by simp [csEv])⟩
  have shd : ∀ l, AllRel tr cs l → AllSeen (tr ++ [csEv cs t rd wr]) t l ∧ AllRel (tr ++ [csEv cs t rd wr]) cs l :=
    fun l h => ⟨allSeen_of_rel (e := csEv cs t rd wr) h (by simp [csEv]), allRel_snoc h (fun _ => by simp [csEv])⟩
  have mxd : ∀ l, Mixed tr t l → AllSeen (tr ++ [csEv cs t rd wr]) t l ∧ AllRel (tr ++ [csEv cs t rd wr]) cs l := by
    intro l hm
    constructor
    · intro i a ha hl
      rcases get_snoc ha with h1 | ⟨rfl, rfl⟩
      · rcases hm i a h1 hl with h2 | h2
        · exact ⟨_, _, get_last tr _, rfl, .inr (hb_last_of_rel h2 (by simp [csEv]))⟩
        · exact h2.mono
      · exact seen_self (e := csEv cs t rd wr)
    · intro i a ha hl
      rcases get_snoc ha with h1 | ⟨rfl, rfl⟩
      · rcases hm i a h1 hl with h2 | h2
        · exact h2.mono
        · exact ⟨_, _, get_last tr _, by simp [csEv], .inr (hb_last_of_seen (e := csEv cs t rd wr) h2)⟩
      · exact rel_self (by simp [csEv])
  have lks : ∀ i, (s.lk i).isSome → S i = t → AllSeen (tr ++ [csEv cs t rd wr]) t (.link i) := by
    intro i hi ht
    by_cases he : ex = some i
    · exact (mxd _ (ht ▸ mix i he)).1
    · exact (shd _ ((lk i hi).2 he)).1
  have lkr : ∀ i, (s.lk i).isSome → AllRel (tr ++ [csEv cs t rd wr]) cs (.link i) := by
    intro i hi
    by_cases he : ex = some i
    · exact (mxd _ (hex i he ▸ mix i he)).2
    · exact (shd _ ((lk i hi).2 he)).2
  refine ⟨?_, ?_, ?_, ?_, ?_, ?_, ?_, ?_, ?_⟩
  · apply raceFree_snoc rf
    · intro l hl
      rcases hrd l hl with h1 | h1
      · exact .inl h1
      · exact .inr ⟨cs, by simp [csEv], h1⟩
    · intro l hl
      rcases hwr l hl with h1 | h1
      · exact .inl h1
      · exact .inr ⟨cs, by simp [csEv], h1⟩
  · intro i x hx
    rcases m1 i x hx with h1 | ⟨h1, h2⟩
    · exact kA _ _ (held i x h1) (hsl x)
    · rw [h1]; exact (shd _ (sh x h2)).1
  · intro x hx
    rcases m2 x hx with h1 | ⟨h1, h2⟩
    · exact kA _ _ (rx x h1) (hsl x)
    · rw [h1]; exact (shd _ (sh x h2)).1
  · intro x hx
    rcases m3 x hx with h1 | ⟨i, h1, h2⟩ | ⟨h1, h2⟩
    · exact (shd _ (sh x h1)).2
    · exact (mine _ (h1 ▸ held i x h2)).2
    · exact (mine _ (h1 ▸ rx x h2)).2
  · intro i hi
    rcases m4 i hi with h1 | ⟨h1, h2, h3⟩
    · cases hl : s.lk i with
      | none => have := own i hl; rw [h1] at this ⊢; exact ⟨(mine _ this.1).1, (mine _ this.2).1⟩
      | some l =>
        have := lk i (by simp [hl])
        rw [h1]
        exact ⟨lks i (by simp [hl]) h1, (shd _ this.1).1⟩
    · exact ⟨kA _ _ (own i h1).1 (by simpa [csEv, MEv.touches] using h2),
        kA _ _ (own i h1).2 (by simpa [csEv, MEv.touches] using h3)⟩
  · intro i hi
    cases hl : s.lk i with
    | none =>
      rcases m5 i hi with h1 | h1
      · simp [hl] at h1
      · have := own i hl; rw [h1] at this; exact ⟨(mine _ this.2).2, fun _ => (mine _ this.1).2⟩
    | some l => exact ⟨(shd _ (lk i (by simp [hl])).1).2, fun _ => lkr i (by simp [hl])⟩
  · intro i hi; cases hi
  · intro i; exact wrSeen_snoc (lkw i) (fun h1 => hlw i h1)
  · intro l hl; exact (shd _ (q l hl)).2

/-- A step without memory accesses. -/
theorem inv_none {s s' : St T} {tr : List (MEv Loc)} (h : InvX s tr none)
    (m1 : ∀ i x, (s'.snd i).held = some x → (s.snd i).held = some x) (m2 : s'.rx.held = s.rx.held)
    (m3 : ∀ x, Shared s' x → Shared s x) (m4 : s'.lk = s.lk) : InvX s' tr none := by
  obtain ⟨rf, held, rx, sh, own, lk, mix, lkw, q⟩ := h
  exact ⟨rf, fun i x hx => held i x (m1 i x hx), fun x hx => rx x (m2 ▸ hx), fun x hx => sh x (m3 x hx),
    m4 ▸ own, m4 ▸ lk, mix, lkw, q⟩

/-- A sender accesses its own locals outside of any critical section. -/
theorem inv_own {s : St T} {tr : List (MEv Loc)} {i : Nat} {rd wr : List Loc} (h : InvX s tr none)
    (hi : s.lk i = none) (hl : ∀ l ∈ rd ++ wr, l = .link i ∨ l = .slotPtr i) :
    InvX s (tr ++ [naEv (S i) rd wr]) none := by
  obtain ⟨rf, held, rx, sh, own, lk, mix, lkw, q⟩ := h
  have ht : ∀ l, l ≠ .link i → l ≠ .slotPtr i → ¬ (naEv (S i) rd wr).touches l := by
    intro l h1 h2 h3
    rcases hl l (by simpa [naEv, MEv.touches] using h3) with h4 | h4
    · exact h1 h4
    · exact h2 h4
  have kA : ∀ u l, AllSeen tr u l → ¬ (naEv (S i) rd wr).touches l → AllSeen (tr ++ [naEv (S i) rd wr]) u l :=
    fun u l h hn => allSeen_snoc h (fun h2 => absurd h2 hn)
  have kR : ∀ l, AllRel tr cs l → ¬ (naEv (S i) rd wr).touches l → AllRel (tr ++ [naEv (S i) rd wr]) cs l :=
    fun l h hn => allRel_snoc h (fun h2 => absurd h2 hn)
  have mine : ∀ l, AllSeen tr (S i) l → AllSeen (tr ++ [naEv (S i) rd wr]) (S i) l :=
    fun l h => allSeen_snoc h (fun _ => rfl)
  have hall : ∀ l ∈ rd ++ wr, AllSeen tr (S i) l := by
    intro l h1
    rcases hl l h1 with rfl | rfl
    · exact (own i hi).1
    · exact (own i hi).2
  refine ⟨raceFree_snoc rf (fun l h1 => .inl (hall l (by simp; exact .inl h1)).wr)
      (fun l h1 => .inl (hall l (by simp; exact .inr h1))), ?_, ?_, ?_, ?_, ?_, ?_, ?_, ?_⟩
  · intro j x hx; exact kA _ _ (held j x hx) (ht _ (by simp) (by simp))
  · intro x hx; exact kA _ _ (rx x hx) (ht _ (by simp) (by simp))
  · intro x hx; exact kR _ (sh x hx) (ht _ (by simp) (by simp))
  · intro j hj
    by_cases hji : j = i
    · subst hji; exact ⟨mine _ (own j hj).1, mine _ (own j hj).2⟩
    · exact ⟨kA _ _ (own j hj).1 (ht _ (by simpa using hji) (by simp)), kA _ _ (own j hj).2 (ht _ (by simp) (by simpa using hji))⟩
  · intro j hj
    have hji : j ≠ i := by rintro rfl; simp [hi] at hj
    exact ⟨kR _ (lk j hj).1 (ht _ (by simp) (by simpa using hji)),
      fun _ => kR _ ((lk j hj).2 (by simp)) (ht _ (by simpa using hji) (by simp))⟩
  · intro j hj; cases hj
  · intro j
    refine wrSeen_snoc (lkw j) (fun h1 => ?_)
    have := hl (.link j) (by simp; exact .inr h1)
    simp at this; subst this; rfl
  · intro l h1; exact kR _ (q l h1) (ht _ (by grind) (by grind))

/-- A sender with a link looks at it before it removes it. -/
theorem inv_look {s : St T} {tr : List (MEv Loc)} {i : Nat} (h : InvX s tr none) (hi : (s.lk i).isSome) :
    InvX s (tr ++ [naEv (S i) [Loc.link i] []]) (some i) := by
  obtain ⟨rf, held, rx, sh, own, lk, mix, lkw, q⟩ := h
  have ht : ∀ l, l ≠ .link i → ¬ (naEv (S i) [Loc.link i] []).touches l := by
    intro l h1 h3; simp [naEv, MEv.touches] at h3; exact h1 h3
  have kA : ∀ u l, AllSeen tr u l → ¬ (naEv (S i) [Loc.link i] []).touches l →
      AllSeen (tr ++ [naEv (S i) [Loc.link i] []]) u l := fun u l h hn => allSeen_snoc h (fun h2 => absurd h2 hn)
  have kR : ∀ l, AllRel tr cs l → ¬ (naEv (S i) [Loc.link i] []).touches l →
      AllRel (tr ++ [naEv (S i) [Loc.link i] []]) cs l := fun l h hn => allRel_snoc h (fun h2 => absurd h2 hn)
  refine ⟨raceFree_snoc rf (fun l h1 => .inl ?_) (fun l h1 => by simp [naEv] at h1), ?_, ?_, ?_, ?_, ?_, ?_, ?_, ?_⟩
  · simp [naEv] at h1; subst h1; exact lkw i
  · intro j x hx; exact kA _ _ (held j x hx) (ht _ (by simp))
  · intro x hx; exact kA _ _ (rx x hx) (ht _ (by simp))
  · intro x hx; exact kR _ (sh x hx) (ht _ (by simp))
  · intro j hj
    have hji : j ≠ i := by rintro rfl; simp [hj] at hi
    exact ⟨kA _ _ (own j hj).1 (ht _ (by simpa using hji)), kA _ _ (own j hj).2 (ht _ (by simp))⟩
  · intro j hj
    refine ⟨kR _ (lk j hj).1 (ht _ (by simp)), fun h1 => ?_⟩
    have hji : j ≠ i := by rintro rfl; simp at h1
    exact kR _ ((lk j hj).2 (by simp)) (ht _ (by simpa using hji))
  · intro j hj
    cases hj
    intro p a ha hl
    rcases get_snoc ha with h1 | ⟨rfl, rfl⟩
    · exact .inl ((lk i hi).2 (by simp) p a h1 hl).mono
    · exact .inr (seen_self (e := naEv (S i) [Loc.link i] []))
  · intro j; exact wrSeen_snoc (lkw j) (fun h1 => by simp [naEv] at h1)
  · intro l h1; exact kR _ (q l h1) (ht _ (by grind))

/-- The copy of a value into or out of a slot, outside of any critical section. -/
theorem inv_slot {s s' : St T} {tr : List (MEv Loc)} {t x : Nat} {rd wr : List Loc} (h : InvX s tr none)
    (hx : AllSeen tr t (.slot x)) (hl : ∀ l ∈ rd ++ wr, l = .slot x)
    (hheld : ∀ i, (s.snd i).held = some x → S i = t) (hrx : s.rx.held = some x → R = t) (hsh : ¬ Shared s x)
    (m1 : ∀ i x, (s'.snd i).held = some x → (s.snd i).held = some x)
    (m2 : ∀ x, s'.rx.held = some x → s.rx.held = some x)
    (m3 : ∀ x, Shared s' x → Shared s x) (m4 : s'.lk = s.lk) : InvX s' (tr ++ [naEv t rd wr]) none := by
  obtain ⟨rf, held, rx, sh, own, lk, mix, lkw, q⟩ := h
  have ht : ∀ l, l ≠ .slot x → ¬ (naEv t rd wr).touches l := by
    intro l h1 h3
    exact h1 (hl l (by simpa [naEv, MEv.touches] using h3))
  have kA : ∀ u l, AllSeen tr u l → ¬ (naEv t rd wr).touches l → AllSeen (tr ++ [naEv t rd wr]) u l :=
    fun u l h hn => allSeen_snoc h (fun h2 => absurd h2 hn)
  have kR : ∀ l, AllRel tr cs l → ¬ (naEv t rd wr).touches l → AllRel (tr ++ [naEv t rd wr]) cs l :=
    fun l h hn => allRel_snoc h (fun h2 => absurd h2 hn)
  have mine : ∀ l, AllSeen tr t l → AllSeen (tr ++ [naEv t rd wr]) t l :=
    fun l h => allSeen_snoc h (fun _ => rfl)
  have hall : ∀ l ∈ rd ++ wr, AllSeen tr t l := fun l h1 => hl l h1 ▸ hx
  refine ⟨raceFree_snoc rf (fun l h1 => .inl (hall l (by simp; exact .inl h1)).wr)
      (fun l h1 => .inl (hall l (by simp; exact .inr h1))), ?_, ?_, ?_, ?_, ?_, ?_, ?_, ?_⟩
  · intro j y hy
    have hy := m1 j y hy
    by_cases hyx : y = x
    · subst hyx; rw [hheld j hy]; exact mine _ hx
    · exact kA _ _ (held j y hy) (ht _ (by simpa using hyx))
  · intro y hy
    have hy := m2 y hy
    by_cases hyx : y = x
    · subst hyx; rw [hrx hy]; exact mine _ hx
    · exact kA _ _ (rx y hy) (ht _ (by simpa using hyx))
  · intro y hy
    have hy := m3 y hy
    have hyx : y ≠ x := by rintro rfl; exact hsh hy
    exact kR _ (sh y hy) (ht _ (by simpa using hyx))
  · intro j hj
    rw [m4] at hj
    exact ⟨kA _ _ (own j hj).1 (ht _ (by simp)), kA _ _ (own j hj).2 (ht _ (by simp))⟩
  · intro j hj
    rw [m4] at hj
    exact ⟨kR _ (lk j hj).1 (ht _ (by simp)), fun _ => kR _ ((lk j hj).2 (by simp)) (ht _ (by simp))⟩
  · intro j hj; cases hj
  · intro j; exact wrSeen_snoc (lkw j) (fun h1 => by have := hl (.link j) (by simp; exact .inr h1); cases this)
  · intro l h1; exact kR _ (q l h1) (ht _ (by grind))

theorem inv_init (n : Nat) : InvX (init n : St T) [] none := by
  constructor <;> simp [init, AllSeen, AllRel, WrSeen, raceFree_nil]

end Verif.Race.Channel
