/-!
# Happens-before and data races

A small, self-contained version of the C11/Rust memory model, enough to state that a program has no data race. It does not
mention any particular program.

An execution is the list of its memory events, in the order of execution. An event belongs to a thread (`tid`), reads and
writes non-atomic locations, and synchronises through *tokens*: an event that releases a token synchronises with every later
event that acquires it. A critical section (`critical_section::with`) is an event that acquires and releases the token of
the lock; a release store of an atomic releases a token of its own, and the acquire load that reads from it acquires that
token. A relaxed access carries no token.
-/

namespace Verif.Race

/-- A memory event. -/
structure MEv (L : Type) where
  /-- the thread (an interrupt handler is a thread too) -/
  tid : Nat
  acq : List Nat := []
  rel : List Nat := []
  /-- non-atomic locations read -/
  rd : List L := []
  /-- non-atomic locations written -/
  wr : List L := []
deriving DecidableEq, Repr

variable {L : Type}

/-- Happens-before between positions of an execution: program order, synchronises-with, and their transitive closure. -/
inductive HB (tr : List (MEv L)) : Nat → Nat → Prop where
  | po {i j : Nat} {a b : MEv L} (lt : i < j) (ha : tr[i]? = some a) (hb : tr[j]? = some b) (same : a.tid = b.tid) :
    HB tr i j
  | sw {i j k : Nat} {a b : MEv L} (lt : i < j) (ha : tr[i]? = some a) (hb : tr[j]? = some b) (hr : k ∈ a.rel)
      (hk : k ∈ b.acq) : HB tr i j
  | trans {i j k : Nat} (h1 : HB tr i j) (h2 : HB tr j k) : HB tr i k

/-- Two events access a common non-atomic location, at least one of them writing it. -/
def Conflict (a b : MEv L) : Prop := ∃ l, (l ∈ a.wr ∧ (l ∈ b.rd ∨ l ∈ b.wr)) ∨ (l ∈ a.rd ∧ l ∈ b.wr)

/-- No data race: conflicting events are ordered by happens-before. -/
def RaceFree (tr : List (MEv L)) : Prop :=
  ∀ (i j : Nat) (a b : MEv L), i < j → tr[i]? = some a → tr[j]? = some b → Conflict a b → HB tr i j

/-! ## Proof devices -/

theorem HB.mono {tr t2 : List (MEv L)} {i j : Nat} (h : HB tr i j) : HB (tr ++ t2) i j := by
  have aux : ∀ {i : Nat} {a : MEv L}, tr[i]? = some a → (tr ++ t2)[i]? = some a := by
    intro i a h
    rw [List.getElem?_append_left]
    · exact h
    · exact (List.getElem?_eq_some_iff.1 h).1
  induction h with
  | po lt ha hb same => exact .po lt (aux ha) (aux hb) same
  | sw lt ha hb hr hk => exact .sw lt (aux ha) (aux hb) hr hk
  | trans _ _ h1 h2 => exact .trans h1 h2

/-- Event `i` happens before whatever thread `t` does next. -/
def Seen (tr : List (MEv L)) (t i : Nat) : Prop :=
  ∃ (j : Nat) (b : MEv L), tr[j]? = some b ∧ b.tid = t ∧ (i = j ∨ HB tr i j)

/-- Event `i` happens before whatever acquires token `k` next. -/
def Rel (tr : List (MEv L)) (k i : Nat) : Prop :=
  ∃ (j : Nat) (b : MEv L), tr[j]? = some b ∧ k ∈ b.rel ∧ (i = j ∨ HB tr i j)

theorem get_app {tr t2 : List (MEv L)} {i : Nat} {a : MEv L} (h : tr[i]? = some a) : (tr ++ t2)[i]? = some a := by
  rw [List.getElem?_append_left]
  · exact h
  · exact (List.getElem?_eq_some_iff.1 h).1

theorem get_last (tr : List (MEv L)) (e : MEv L) : (tr ++ [e])[tr.length]? = some e := by simp

theorem get_lt {tr : List (MEv L)} {i : Nat} {a : MEv L} (h : tr[i]? = some a) : i < tr.length :=
  (List.getElem?_eq_some_iff.1 h).1

theorem get_snoc {tr : List (MEv L)} {e a : MEv L} {i : Nat} (h : (tr ++ [e])[i]? = some a) :
    tr[i]? = some a ∨ (i = tr.length ∧ a = e) := by
  have hl := get_lt h
  simp at hl
  rcases Nat.lt_succ_iff_lt_or_eq.1 hl with h1 | h1
  · rw [List.getElem?_append_left h1] at h; exact .inl h
  · subst h1; rw [get_last] at h; exact .inr ⟨rfl, (Option.some.inj h).symm⟩

theorem Seen.mono {tr t2 : List (MEv L)} {t i : Nat} (h : Seen tr t i) : Seen (tr ++ t2) t i := by
  obtain ⟨j, b, h1, h2, h3⟩ := h
  exact ⟨j, b, get_app h1, h2, h3.imp id HB.mono⟩

theorem Rel.mono {tr t2 : List (MEv L)} {k i : Nat} (h : Rel tr k i) : Rel (tr ++ t2) k i := by
  obtain ⟨j, b, h1, h2, h3⟩ := h
  exact ⟨j, b, get_app h1, h2, h3.imp id HB.mono⟩

theorem hb_last_of_seen {tr : List (MEv L)} {e : MEv L} {i : Nat} (h : Seen tr e.tid i) :
    HB (tr ++ [e]) i tr.length := by
  obtain ⟨j, b, h1, h2, h3⟩ := h
  have h4 : HB (tr ++ [e]) j tr.length := .po (get_lt h1) (get_app h1) (get_last tr e) h2
  rcases h3 with rfl | h3
  · exact h4
  · exact .trans h3.mono h4

theorem hb_last_of_rel {tr : List (MEv L)} {e : MEv L} {k i : Nat} (h : Rel tr k i) (hk : k ∈ e.acq) :
    HB (tr ++ [e]) i tr.length := by
  obtain ⟨j, b, h1, h2, h3⟩ := h
  have h4 : HB (tr ++ [e]) j tr.length := .sw (get_lt h1) (get_app h1) (get_last tr e) h2 hk
  rcases h3 with rfl | h3
  · exact h4
  · exact .trans h3.mono h4

theorem seen_self {tr : List (MEv L)} {e : MEv L} : Seen (tr ++ [e]) e.tid tr.length :=
  ⟨_, e, get_last tr e, rfl, .inl rfl⟩

theorem rel_self {tr : List (MEv L)} {e : MEv L} {k : Nat} (hk : k ∈ e.rel) : Rel (tr ++ [e]) k tr.length :=
  ⟨_, e, get_last tr e, hk, .inl rfl⟩

/-- The event touches the location. -/
def MEv.touches (e : MEv L) (l : L) : Prop := l ∈ e.rd ∨ l ∈ e.wr

/-- Every event that touched `l` happens before what thread `t` does next. -/
def AllSeen (tr : List (MEv L)) (t : Nat) (l : L) : Prop := ∀ i a, tr[i]? = some a → a.touches l → Seen tr t i

/-- Every event that touched `l` happens before what acquires token `k` next. -/
def AllRel (tr : List (MEv L)) (k : Nat) (l : L) : Prop := ∀ i a, tr[i]? = some a → a.touches l → Rel tr k i

/-- Every event that wrote `l` happens before what thread `t` does next. -/
def WrSeen (tr : List (MEv L)) (t : Nat) (l : L) : Prop := ∀ i a, tr[i]? = some a → l ∈ a.wr → Seen tr t i

theorem raceFree_nil : RaceFree ([] : List (MEv L)) := by intro i j a b _ h; simp at h

theorem raceFree_snoc {tr : List (MEv L)} {e : MEv L} (h : RaceFree tr)
    (hrd : ∀ l, l ∈ e.rd → WrSeen tr e.tid l ∨ ∃ k, k ∈ e.acq ∧ AllRel tr k l)
    (hwr : ∀ l, l ∈ e.wr → AllSeen tr e.tid l ∨ ∃ k, k ∈ e.acq ∧ AllRel tr k l) : RaceFree (tr ++ [e]) := by
  intro i j a b hij ha hb hc
  have hj := get_lt hb
  simp at hj
  rcases Nat.lt_succ_iff_lt_or_eq.1 hj with h1 | h1
  · rw [List.getElem?_append_left h1] at hb
    rw [List.getElem?_append_left (by omega)] at ha
    exact (h i j a b hij ha hb hc).mono
  · subst h1
    rw [get_last] at hb; cases hb
    rw [List.getElem?_append_left hij] at ha
    obtain ⟨l, hl⟩ := hc
    rcases hl with ⟨h2, h3 | h3⟩ | ⟨h2, h3⟩
    · rcases hrd l h3 with h4 | ⟨k, h4, h5⟩
      · exact hb_last_of_seen (h4 i a ha h2)
      · exact hb_last_of_rel (h5 i a ha (.inr h2)) h4
    · rcases hwr l h3 with h4 | ⟨k, h4, h5⟩
      · exact hb_last_of_seen (h4 i a ha (.inr h2))
      · exact hb_last_of_rel (h5 i a ha (.inr h2)) h4
    · rcases hwr l h3 with h4 | ⟨k, h4, h5⟩
      · exact hb_last_of_seen (h4 i a ha (.inl h2))
      · exact hb_last_of_rel (h5 i a ha (.inl h2)) h4

theorem AllSeen.wr {tr : List (MEv L)} {t : Nat} {l : L} (h : AllSeen tr t l) : WrSeen tr t l :=
  fun i a ha hl => h i a ha (.inr hl)

theorem allSeen_snoc {tr : List (MEv L)} {e : MEv L} {t : Nat} {l : L} (h : AllSeen tr t l)
    (he : e.touches l → e.tid = t) : AllSeen (tr ++ [e]) t l := by
  intro i a ha hl
  rcases get_snoc ha with h1 | ⟨rfl, rfl⟩
  · exact (h i a h1 hl).mono
  · exact he hl ▸ seen_self

theorem allSeen_of_rel {tr : List (MEv L)} {e : MEv L} {k : Nat} {l : L} (h : AllRel tr k l) (hk : k ∈ e.acq) :
    AllSeen (tr ++ [e]) e.tid l := by
  intro i a ha hl
  rcases get_snoc ha with h1 | ⟨rfl, rfl⟩
  · exact ⟨_, e, get_last tr e, rfl, .inr (hb_last_of_rel (h i a h1 hl) hk)⟩
  · exact seen_self

theorem allRel_snoc {tr : List (MEv L)} {e : MEv L} {k : Nat} {l : L} (h : AllRel tr k l)
    (he : e.touches l → k ∈ e.rel) : AllRel (tr ++ [e]) k l := by
  intro i a ha hl
  rcases get_snoc ha with h1 | ⟨rfl, rfl⟩
  · exact (h i a h1 hl).mono
  · exact rel_self (he hl)

theorem allRel_of_seen {tr : List (MEv L)} {e : MEv L} {k : Nat} {l : L} (h : AllSeen tr e.tid l) (hk : k ∈ e.rel) :
    AllRel (tr ++ [e]) k l := by
  intro i a ha hl
  rcases get_snoc ha with h1 | ⟨rfl, rfl⟩
  · exact ⟨_, e, get_last tr e, hk, .inr (hb_last_of_seen (h i a h1 hl))⟩
  · exact rel_self hk

theorem wrSeen_snoc {tr : List (MEv L)} {e : MEv L} {t : Nat} {l : L} (h : WrSeen tr t l)
    (he : l ∈ e.wr → e.tid = t) : WrSeen (tr ++ [e]) t l := by
  intro i a ha hl
  rcases get_snoc ha with h1 | ⟨rfl, rfl⟩
  · exact (h i a h1 hl).mono
  · exact he hl ▸ seen_self

/-- An event of a critical section of lock `k`. -/
def csEv (k t : Nat) (rd wr : List L) : MEv L := { tid := t, acq := [k], rel := [k], rd := rd, wr := wr }

/-- An event outside of any critical section. -/
def naEv (t : Nat) (rd wr : List L) : MEv L := { tid := t, rd := rd, wr := wr }

end Verif.Race
