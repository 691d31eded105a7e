import Verif.Race.Hb

/-!
# An ownership discipline that implies the absence of data races

Proof device: every location is owned by a thread, or protected by the lock. Ownership may change in a critical section only.
-/

namespace Verif.Race

variable {L : Type}

/-- How a location may be accessed. -/
inductive Mode where
  /-- by thread `t`, at any time -/
  | own (t : Nat)
  /-- by any thread, in a critical section -/
  | sh
  /-- read by any thread in a critical section; written only by thread `t`, in a critical section -/
  | shw (t : Nat)
  /-- like `shw t`, but thread `t` may read the location outside of a critical section -/
  | looked (t : Nat)
deriving DecidableEq, Repr

/-- Every event that touched `l` happens before the next critical section of thread `t`. -/
def Mixed (tr : List (MEv L)) (k t : Nat) (l : L) : Prop :=
  ∀ i a, tr[i]? = some a → a.touches l → Rel tr k i ∨ Seen tr t i

/-- Every event that wrote `l` happens before the next critical section. -/
def WrRel (tr : List (MEv L)) (k : Nat) (l : L) : Prop := ∀ i a, tr[i]? = some a → l ∈ a.wr → Rel tr k i

theorem wrRel_snoc {tr : List (MEv L)} {e : MEv L} {k : Nat} {l : L} (h : WrRel tr k l) (hn : l ∉ e.wr) :
    WrRel (tr ++ [e]) k l := by
  intro i a ha hl
  rcases get_snoc ha with h1 | ⟨rfl, rfl⟩
  · exact (h i a h1 hl).mono
  · exact absurd hl hn

def Mode.Ok (tr : List (MEv L)) (k : Nat) (l : L) : Mode → Prop
  | .own t => AllSeen tr t l
  | .sh => AllRel tr k l
  | .shw t => AllRel tr k l ∧ WrSeen tr t l
  | .looked t => Mixed tr k t l ∧ WrSeen tr t l ∧ WrRel tr k l

structure Disc (tr : List (MEv L)) (k : Nat) (D : L → Mode) : Prop where
  rf : RaceFree tr
  ok : ∀ l, (D l).Ok tr k l

theorem disc_nil (k : Nat) (D : L → Mode) : Disc ([] : List (MEv L)) k D := by
  refine ⟨raceFree_nil, fun l => ?_⟩
  cases D l <;> simp [Mode.Ok, AllSeen, AllRel, WrSeen, WrRel, Mixed]

/-- The modes that a critical section of thread `t` can use and change. -/
def Mode.near (t : Nat) : Mode → Prop
  | .own u => u = t
  | .sh => True
  | .shw u => u = t
  | .looked u => u = t

theorem disc_cs2 {tr : List (MEv L)} {k t : Nat} {D D' : L → Mode} {rd wr : List L} (h : Disc tr k D)
    (hD : ∀ l, ((D l).near t ∧ (D' l).near t) ∨
      (D' l = D l ∧ l ∉ wr ∧ (l ∈ rd → ∃ u, D l = .shw u ∨ D l = .looked u))) :
    Disc (tr ++ [csEv k t rd wr]) k D' := by
  obtain ⟨rf, ok⟩ := h
  have hka : k ∈ (csEv k t rd wr).acq := by simp [csEv]
  have hkr : k ∈ (csEv k t rd wr).rel := by simp [csEv]
  have near : ∀ l, (D l).near t → Mixed tr k t l := by
    intro l hl
    have h1 := ok l
    cases hm : D l <;> rw [hm] at hl h1 <;> simp only [Mode.near, Mode.Ok] at hl h1
    · subst hl; exact fun i a ha hx => .inr (h1 i a ha hx)
    · exact fun i a ha hx => .inl (h1 i a ha hx)
    · exact fun i a ha hx => .inl (h1.1 i a ha hx)
    · subst hl; exact h1.1
  have mxd : ∀ l, Mixed tr k t l → AllSeen (tr ++ [csEv k t rd wr]) t l ∧ AllRel (tr ++ [csEv k t rd wr]) k l := by
    intro l hm
    constructor
    · intro i a ha hl
      rcases get_snoc ha with h1 | ⟨rfl, rfl⟩
      · rcases hm i a h1 hl with h2 | h2
        · exact ⟨_, _, get_last tr _, rfl, .inr (hb_last_of_rel h2 hka)⟩
        · exact h2.mono
      · exact seen_self (e := csEv k t rd wr)
    · intro i a ha hl
      rcases get_snoc ha with h1 | ⟨rfl, rfl⟩
      · rcases hm i a h1 hl with h2 | h2
        · exact h2.mono
        · exact ⟨_, _, get_last tr _, hkr, .inr (hb_last_of_seen (e := csEv k t rd wr) h2)⟩
      · exact rel_self hkr
  have hb : ∀ l, Mixed tr k t l → ∀ i a, tr[i]? = some a → a.touches l → HB (tr ++ [csEv k t rd wr]) i tr.length := by
    intro l hm i a ha hl
    rcases hm i a ha hl with h2 | h2
    · exact hb_last_of_rel h2 hka
    · exact hb_last_of_seen (e := csEv k t rd wr) h2
  refine ⟨?_, fun l => ?_⟩
  · intro i j a b hij ha hb' hc
    have hj := get_lt hb'
    simp at hj
    rcases Nat.lt_succ_iff_lt_or_eq.1 hj with h1 | h1
    · rw [List.getElem?_append_left h1] at hb'
      rw [List.getElem?_append_left (by omega)] at ha
      exact (rf i j a b hij ha hb' hc).mono
    · subst h1
      rw [get_last] at hb'; cases hb'
      rw [List.getElem?_append_left hij] at ha
      obtain ⟨l, hl⟩ := hc
      have hta : a.touches l := by rcases hl with ⟨h2, _⟩ | ⟨h2, _⟩; exact .inr h2; exact .inl h2
      rcases hD l with ⟨h2, _⟩ | ⟨_, h3, h4⟩
      · exact hb l (near l h2) i a ha hta
      · rcases hl with ⟨h5, h6 | h6⟩ | ⟨h5, h6⟩
        · obtain ⟨u, hu | hu⟩ := h4 h6
          · have := ok l; rw [hu] at this
            exact hb_last_of_rel (this.1 i a ha hta) hka
          · have := ok l; rw [hu] at this
            exact hb_last_of_rel (this.2.2 i a ha h5) hka
        · exact absurd h6 h3
        · exact absurd h6 h3
  · rcases hD l with ⟨h2, h3⟩ | ⟨h2, h3, h4⟩
    · have hm := mxd l (near l h2)
      cases hm' : D' l <;> rw [hm'] at h3 <;> simp only [Mode.near, Mode.Ok] at h3 ⊢
      · subst h3; exact hm.1
      · exact hm.2
      · subst h3; exact ⟨hm.2, hm.1.wr⟩
      · subst h3; exact ⟨fun i a ha hl => .inl (hm.2 i a ha hl), hm.1.wr, fun i a ha hl => hm.2 i a ha (.inr hl)⟩
    · rw [h2]
      have h1 := ok l
      by_cases hr : l ∈ rd
      · obtain ⟨u, hu | hu⟩ := h4 hr
        · rw [hu] at h1 ⊢
          exact ⟨allRel_snoc h1.1 (fun _ => hkr), wrSeen_snoc h1.2 (fun h5 => absurd h5 h3)⟩
        · rw [hu] at h1 ⊢
          refine ⟨fun i a ha hl => ?_, wrSeen_snoc h1.2.1 (fun h5 => absurd h5 h3), wrRel_snoc h1.2.2 h3⟩
          rcases get_snoc ha with h6 | ⟨rfl, rfl⟩
          · exact (h1.1 i a h6 hl).imp Rel.mono Seen.mono
          · exact .inl (rel_self hkr)
      · have hn : ¬ (csEv k t rd wr).touches l := by
          simp only [csEv, MEv.touches]; rintro (h5 | h5); exact hr h5; exact h3 h5
        cases hm : D l <;> rw [hm] at h1 <;> simp only [Mode.Ok] at h1 ⊢
        · exact allSeen_snoc h1 (fun h5 => absurd h5 hn)
        · exact allRel_snoc h1 (fun h5 => absurd h5 hn)
        · exact ⟨allRel_snoc h1.1 (fun h5 => absurd h5 hn), wrSeen_snoc h1.2 (fun h5 => absurd h5 h3)⟩
        · refine ⟨fun i a ha hl => ?_, wrSeen_snoc h1.2.1 (fun h5 => absurd h5 h3), wrRel_snoc h1.2.2 h3⟩
          rcases get_snoc ha with h6 | ⟨rfl, rfl⟩
          · exact (h1.1 i a h6 hl).imp Rel.mono Seen.mono
          · exact absurd hl hn

theorem disc_cs {tr : List (MEv L)} {k t : Nat} {D D' : L → Mode} {rd wr : List L} (h : Disc tr k D)
    (hD : ∀ l, ((D l).near t ∧ (D' l).near t ∧ D' l ≠ .looked t) ∨
      (D' l = D l ∧ l ∉ wr ∧ (l ∈ rd → ∃ u, D l = .shw u))) :
    Disc (tr ++ [csEv k t rd wr]) k D' :=
  disc_cs2 h (fun l => (hD l).imp (fun h1 => ⟨h1.1, h1.2.1⟩)
    (fun h1 => ⟨h1.1, h1.2.1, fun h2 => (h1.2.2 h2).imp (fun _ h3 => .inl h3)⟩))

theorem disc_na {tr : List (MEv L)} {k t : Nat} {D D' : L → Mode} {rd wr : List L} (h : Disc tr k D)
    (hD : ∀ l, (D' l = D l ∧ (D l = .own t ∨ (l ∉ wr ∧ (l ∉ rd ∨ D l = .looked t)))) ∨
      (D l = .shw t ∧ D' l = .looked t ∧ l ∉ wr)) :
    Disc (tr ++ [naEv t rd wr]) k D' := by
  obtain ⟨rf, ok⟩ := h
  refine ⟨raceFree_snoc rf (fun l hl => .inl ?_) (fun l hl => .inl ?_), fun l => ?_⟩
  · simp only [naEv] at hl ⊢
    have h1 := ok l
    rcases hD l with ⟨_, h2 | ⟨_, h2 | h2⟩⟩ | ⟨h2, _⟩
    · rw [h2] at h1; exact AllSeen.wr h1
    · exact absurd hl h2
    · rw [h2] at h1; exact h1.2.1
    · rw [h2] at h1; exact h1.2
  · simp only [naEv] at hl ⊢
    have h1 := ok l
    rcases hD l with ⟨_, h2 | ⟨h2, _⟩⟩ | ⟨_, _, h2⟩
    · rw [h2] at h1; exact h1
    · exact absurd hl h2
    · exact absurd hl h2
  · have h1 := ok l
    rcases hD l with ⟨h0, h2 | ⟨h3, h2 | h2⟩⟩ | ⟨h2, h0, h3⟩
    · rw [h0, h2]; rw [h2] at h1; exact allSeen_snoc h1 (fun _ => rfl)
    · rw [h0]
      have hn : ¬ (naEv t rd wr).touches l := by
        simp only [naEv, MEv.touches]; rintro (h5 | h5); exact h2 h5; exact h3 h5
      cases hm : D l <;> rw [hm] at h1 <;> simp only [Mode.Ok] at h1 ⊢
      · exact allSeen_snoc h1 (fun h5 => absurd h5 hn)
      · exact allRel_snoc h1 (fun h5 => absurd h5 hn)
      · exact ⟨allRel_snoc h1.1 (fun h5 => absurd h5 hn), wrSeen_snoc h1.2 (fun h5 => absurd h5 h3)⟩
      · refine ⟨fun i a ha hl => ?_, wrSeen_snoc h1.2.1 (fun h5 => absurd h5 h3), wrRel_snoc h1.2.2 h3⟩
        rcases get_snoc ha with h6 | ⟨rfl, rfl⟩
        · exact (h1.1 i a h6 hl).imp Rel.mono Seen.mono
        · exact absurd hl hn
    · rw [h0, h2]; rw [h2] at h1
      refine ⟨fun i a ha hl => ?_, wrSeen_snoc h1.2.1 (fun h5 => absurd h5 h3), wrRel_snoc h1.2.2 h3⟩
      rcases get_snoc ha with h6 | ⟨rfl, rfl⟩
      · exact (h1.1 i a h6 hl).imp Rel.mono Seen.mono
      · exact .inr (seen_self (e := naEv t rd wr))
    · rw [h0]; rw [h2] at h1
      refine ⟨fun i a ha hl => ?_, wrSeen_snoc h1.2 (fun h5 => absurd h5 h3),
        wrRel_snoc (fun i a ha hl => h1.1 i a ha (.inr hl)) h3⟩
      rcases get_snoc ha with h6 | ⟨rfl, rfl⟩
      · exact .inl (h1.1 i a h6 hl).mono
      · exact .inr (seen_self (e := naEv t rd wr))

end Verif.Race
