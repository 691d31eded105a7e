import Verif.Race.Hb

/-!
# Proving that two events are not ordered

A set of positions that is closed under the direct edges of happens-before (program order, synchronises-with) is closed under
happens-before.
-/

namespace Verif.Race

variable {L : Type}

/-- A direct edge of happens-before (if `a` comes before `b`). -/
def edge (a b : MEv L) : Bool := a.tid == b.tid || a.rel.any (fun k => b.acq.contains k)

/-- Is the set closed under direct edges? -/
def closedB (tr : List (MEv L)) (S : Nat → Bool) : Bool :=
  (List.range tr.length).all fun i => (List.range tr.length).all fun j =>
    match tr[i]?, tr[j]? with
    | some a, some b => !(S i && decide (i < j) && edge a b) || S j
    | _, _ => true

theorem closed_hb {tr : List (MEv L)} {S : Nat → Bool} (h : closedB tr S = true) {i j : Nat} (hb : HB tr i j) : S i = true → S j = true := by
  have key : ∀ {i j : Nat} {a b : MEv L}, i < j → tr[i]? = some a → tr[j]? = some b → edge a b = true → S i = true → S j = true := by
    intro i j a b lt ha hb he hs
    simp only [closedB, List.all_eq_true, List.mem_range] at h
    have h1 := h i (List.getElem?_eq_some_iff.1 ha).1 j (List.getElem?_eq_some_iff.1 hb).1
    simpa [ha, hb, lt, he, hs] using h1
  induction hb with
  | po lt ha hb same => exact key lt ha hb (by simp [edge, same])
  | sw lt ha hb hr hk =>
    exact key lt ha hb (by simp only [edge, Bool.or_eq_true, List.any_eq_true]; exact .inr ⟨_, hr, by simpa using hk⟩)
  | trans _ _ h1 h2 => exact fun hs => h2 (h1 hs)

/-- Two conflicting events, the second outside of a closed set that contains the first, are a data race. -/
theorem race_of_closed {tr : List (MEv L)} (S : Nat → Bool) {i j : Nat} {a b : MEv L} (lt : i < j) (ha : tr[i]? = some a) (hb : tr[j]? = some b)
    (hc : Conflict a b) (h : closedB tr S = true) (hi : S i = true) (hj : S j = false) : ¬ RaceFree tr := by
  intro hr
  have := closed_hb h (hr i j a b lt ha hb hc) hi
  rw [hj] at this; cases this

end Verif.Race
