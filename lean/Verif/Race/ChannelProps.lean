import Verif.Race.Channel

namespace Verif.Race.Channel

open Verif.Channel Verif.Race

variable {T : Type}

theorem inv_cs1 {s s' : St T} {tr : List (MEv Loc)} {t : Nat} {rd wr : List Loc} (h : InvX s tr none)
    (hsl : ∀ l ∈ rd ++ wr, l.isSlot = false) (hlw : ∀ i, Loc.link i ∈ wr → t = S i)
    (hrd : ∀ l ∈ rd, WrSeen tr t l ∨ AllRel tr cs l) (hwr : ∀ l ∈ wr, AllSeen tr t l ∨ AllRel tr cs l)
    (m : Moves t s s' rd wr) : InvX s' (tr ++ [csEv cs t rd wr]) none :=
  inv_cs h (by intro i hi; cases hi) hsl hlw hrd hwr m

/-- a critical section that accesses only the protected fields -/
theorem inv_csq {s s' : St T} {tr : List (MEv Loc)} {t : Nat} {rd wr : List Loc} (h : InvX s tr none)
    (hl : ∀ l ∈ rd ++ wr, l = .freeq ∨ l = .readyq ∨ l = .receiverDropped ∨ l = .numSenders ∨ l = .receiverWaker)
    (m1 : ∀ i x, (s'.snd i).held = some x → (s.snd i).held = some x ∨ (S i = t ∧ Shared s x))
    (m2 : ∀ x, s'.rx.held = some x → s.rx.held = some x ∨ (R = t ∧ Shared s x))
    (m3 : ∀ x, Shared s' x → Shared s x ∨ (∃ i, S i = t ∧ (s.snd i).held = some x) ∨ (R = t ∧ s.rx.held = some x))
    (m4 : s'.lk = s.lk) : InvX s' (tr ++ [csEv cs t rd wr]) none := by
  refine inv_cs1 h (fun l h1 => ?_) (fun i h1 => ?_) (fun l h1 => .inr (h.q l (hl l ?_)))
    (fun l h1 => .inr (h.q l (hl l ?_))) ⟨m1, m2, m3, ?_, ?_⟩
  · rcases hl l h1 with rfl | rfl | rfl | rfl | rfl <;> rfl
  · have := hl (.link i) (by simp; exact .inr h1); simp at this
  · simp; exact .inl h1
  · simp; exact .inr h1
  · intro i hi
    rw [m4] at hi
    refine .inr ⟨hi, fun h1 => ?_, fun h1 => ?_⟩
    · have := hl _ h1; simp at this
    · have := hl _ h1; simp at this
  · intro i hi; rw [m4] at hi; exact .inl hi

theorem held_eq {s : St T} {i : Nat} {p : Pc T} (h : p.held = (s.snd i).held) {j x : Nat}
    (hx : (set s.snd i p j).held = some x) : (s.snd j).held = some x := by rwa [held_set h j] at hx

theorem wq_lk {s : St T} (hq : InvQ s) {k : Nat} (hk : k ∈ s.wq) : (s.lk k).isSome := by
  obtain ⟨l, hl, _⟩ := (hq.mem k).1 hk
  simp [hl]

theorem lk_none_wq {s : St T} (hq : InvQ s) {k : Nat} (hk : s.lk k = none) : k ∉ s.wq := by
  intro h; have := wq_lk hq h; simp [hk] at this

/-- The critical section of `return_free_slot`, run by thread `t`. -/
theorem inv_ret {s s' : St T} {tr : List (MEv Loc)} {t : Nat} (hq : InvQ s) (h : InvX s tr none)
    (m1 : ∀ i x, (s'.snd i).held = some x → (s.snd i).held = some x)
    (m2 : ∀ x, s'.rx.held = some x → s.rx.held = some x)
    (m3 : ∀ x, Shared s' x → Shared s x ∨ (R = t ∧ s.rx.held = some x))
    (m4 : ∀ i, s'.lk i = none ↔ s.lk i = none) : InvX s' (tr ++ [retEv s t]) none := by
  have hin : ∀ k, k ∈ s.wq → AllRel tr cs (.link k) ∧ AllRel tr cs (.slotPtr k) := fun k hk =>
    ⟨(h.lk k (wq_lk hq hk)).2 (by simp), (h.lk k (wq_lk hq hk)).1⟩
  have htake : ∀ k, k ∈ s.wq.take 1 → k ∈ s.wq := fun k hk => List.mem_of_mem_take hk
  refine inv_cs1 h (fun l h1 => ?_) (fun i h1 => ?_) (fun l h1 => .inr ?_)
    (fun l h1 => .inr ?_) ⟨fun i x hx => .inl (m1 i x hx), fun x hx => .inl (m2 x hx), ?_, ?_, ?_⟩
  · simp [-List.map_take] at h1
    rcases h1 with ⟨k, _, rfl⟩ | rfl | ⟨k, _, rfl⟩ <;> rfl
  · simp [-List.map_take] at h1
  · simp [-List.map_take] at h1
    obtain ⟨k, hk, rfl⟩ := h1
    exact (hin k hk).1
  · rcases List.mem_cons.1 h1 with rfl | h1
    · exact h.q _ (by simp)
    · obtain ⟨k, hk, rfl⟩ := List.mem_map.1 h1
      exact (hin k (htake k hk)).2
  · intro x hx
    rcases m3 x hx with h1 | h1
    · exact .inl h1
    · exact .inr (.inr h1)
  · intro i hi
    have hi := (m4 i).1 hi
    have hn := lk_none_wq hq hi
    refine .inr ⟨hi, fun h1 => ?_, fun h1 => ?_⟩
    · simp [-List.map_take] at h1; exact hn h1
    · simp [-List.map_take] at h1; exact hn (htake i h1)
  · intro i hi
    refine .inl ?_
    cases hl : s.lk i with
    | none => rw [(m4 i).2 hl] at hi; cases hi
    | some l => rfl

theorem held_unique {n : Nat} {s : St T} {own} (ho : InvO n s own) {i x : Nat} (hx : (s.snd i).held = some x) :
    (∀ j, (s.snd j).held = some x → j = i) ∧ s.rx.held ≠ some x ∧ ¬ Shared s x := by
  have h0 := (ho.snd i x).1 hx
  refine ⟨fun j hj => ?_, fun h1 => ?_, fun h1 => ?_⟩
  · have := (ho.snd j x).1 hj; grind
  · have := (ho.rx x).1 h1; grind
  · rcases h1 with h1 | h1 | ⟨j, h1⟩
    · have := (ho.free x).1 h1; grind
    · have := (ho.ready x).1 h1; grind
    · have := (ho.sl j x).1 h1; grind

theorem rx_unique {n : Nat} {s : St T} {own} (ho : InvO n s own) {x : Nat} (hx : s.rx.held = some x) :
    (∀ j, (s.snd j).held ≠ some x) ∧ ¬ Shared s x := by
  have h0 := (ho.rx x).1 hx
  refine ⟨fun j hj => ?_, fun h1 => ?_⟩
  · have := (ho.snd j x).1 hj; grind
  · rcases h1 with h1 | h1 | ⟨j, h1⟩
    · have := (ho.free x).1 h1; grind
    · have := (ho.ready x).1 h1; grind
    · have := (ho.sl j x).1 h1; grind

theorem inv_goS {n : Nat} {s s' : St T} {i : Nat} {e} {tr : List (MEv Loc)} (hI : Inv n s) (h : InvX s tr none)
    (hs : goS n s i = some (s', e)) : InvX s' (tr ++ emitS s i) none := by
  unfold goS at hs
  unfold emitS
  split at hs
  · cases hs
  · cases hs
  · cases hs
  · rename_i v hi
    rw [hi]
    simp only [List.append_nil]
    split at hs <;> cases hs
    · exact inv_none h (fun j x hx => held_eq (by rw [hi]; rfl) hx) rfl (fun x hx => hx) rfl
    · exact inv_none h (fun j x hx => held_eq (by rw [hi]; rfl) hx) rfl (fun x hx => hx) rfl
  · rename_i v hi
    rw [hi]
    split at hs <;> cases hs
    · exact inv_csq h (by simp) (fun j x hx => .inl (held_eq (by rw [hi]; rfl) hx)) (fun x hx => .inl hx)
        (fun x hx => .inl hx) rfl
    · exact inv_csq h (by simp) (fun j x hx => .inl (held_eq (by rw [hi]; rfl) hx)) (fun x hx => .inl hx)
        (fun x hx => .inl hx) rfl
  · rename_i v hi
    rw [hi]
    split at hs <;> cases hs
    · rename_i x f hf
      refine inv_csq h (by simp) (fun j y hy => ?_) (fun x hx => .inl hx) (fun x hx => .inl ?_) rfl
      · by_cases hj : j = i
        · subst hj
          simp only [set_same, Pc.held, Option.some.injEq] at hy
          exact .inr ⟨rfl, .inl (by rw [hf]; simp [hy])⟩
        · simp only [set_ne _ _ hj] at hy; exact .inl hy
      · rcases hx with h1 | h1 | h1
        · exact .inl (by rw [hf]; exact List.mem_cons_of_mem _ h1)
        · exact .inr (.inl h1)
        · exact .inr (.inr h1)
    · exact inv_csq h (by simp) (fun j x hx => .inl (held_eq (by rw [hi]; rfl) hx)) (fun x hx => .inl hx)
        (fun x hx => .inl hx) rfl
  · rename_i v k hi
    rw [hi]
    cases hs
    have hk : (Pc.drop1 v k).held = (s.snd i).held := by rw [hi]; cases k <;> rfl
    cases hl : s.lk i with
    | none =>
      have h1 := inv_own (rd := [.link i]) (wr := []) h hl (by simp)
      simp only [Option.isSome_none, Bool.false_eq_true, if_false]
      exact inv_none h1 (fun j x hx => held_eq hk hx) rfl (fun x hx => hx)
        (by funext j; simp only [set_apply]; split <;> simp_all)
    | some l =>
      have h1 := inv_look (i := i) h (by simp [hl])
      simp only [Option.isSome_some, if_true]
      rw [show ∀ (a b : MEv Loc), tr ++ [a, b] = tr ++ [a] ++ [b] by simp]
      have hw : ∀ j, j ≠ i → j ∈ s.wq → AllRel (tr ++ [naEv (S i) [Loc.link i] []]) cs (.link j) := by
        intro j hj hjq
        exact (h1.lk j (wq_lk hI.q hjq)).2 (by intro h2; cases h2; exact hj rfl)
      refine inv_cs h1 (by rintro j hj; cases hj; rfl) (by simp [Loc.isSlot]) (by simp) ?_ (by simp)
        ⟨fun j x hx => .inl (held_eq hk hx), fun x hx => .inl hx, fun x hx => .inl hx, ?_, ?_⟩
      · intro l' hl'
        rcases List.mem_cons.1 hl' with rfl | hl'
        · exact .inl (h1.lkw i)
        · obtain ⟨j, hj, rfl⟩ := List.mem_map.1 hl'
          by_cases hji : j = i
          · subst hji; exact .inl (h1.lkw j)
          · exact .inr (hw j hji hj)
      · intro j hj
        by_cases hji : j = i
        · exact .inl (by rw [hji])
        · simp only [set_ne _ _ hji] at hj
          have := lk_none_wq hI.q hj
          refine .inr ⟨hj, ?_, ?_⟩
          · simp; exact ⟨hji, this⟩
          · simp
      · intro j hj
        by_cases hji : j = i
        · exact .inr (by rw [hji])
        · simp only [set_ne _ _ hji] at hj; exact .inl hj
  · rename_i v k hi
    rw [hi]
    have hk : (finPc v k).held = (s.snd i).held := by rw [hi]; cases k <;> rfl
    have hlk : s.lk i = none := by
      cases hl : s.lk i with
      | none => rfl
      | some l => have := hI.q.lkpc i l hl; rw [hi] at this; cases this
    have h1 := inv_own (rd := []) (wr := [.slotPtr i]) h hlk (by simp)
    rw [show ∀ (a : MEv Loc) (b : List (MEv Loc)), tr ++ a :: b = (tr ++ [a]) ++ b by simp]
    generalize tr ++ [naEv (S i) [] [Loc.slotPtr i]] = tr1 at h1 ⊢
    cases hx : s.sl i with
    | none =>
      simp only [Option.isSome_none, Bool.false_eq_true, if_false, List.nil_append]
      have hsl : set s.sl i none = s.sl := by funext j; simp only [set_apply]; split <;> simp_all
      have h2 := inv_own (rd := []) (wr := [.link i, .slotPtr i]) h1 hlk (by simp)
      have key : ∀ p : Pc T, p = finPc v k → InvX { s with sl := set s.sl i none, snd := set s.snd i p }
          (tr1 ++ [naEv (S i) [] [Loc.link i, Loc.slotPtr i]]) none := by
        rintro p rfl
        rw [hsl]
        exact inv_none h2 (fun j x hx => held_eq hk hx) rfl (fun x hx => hx) rfl
      simp only [hx] at hs
      cases k <;> cases hs <;> exact key _ rfl
    | some x =>
      simp only [Option.isSome_some, if_true]
      rw [show ∀ (a b : MEv Loc), tr1 ++ ([a] ++ [b]) = tr1 ++ [a] ++ [b] by simp]
      have key : ∀ (s2 : St T), s2.snd = set s.snd i (finPc v k) → s2.rx = s.rx →
          (∀ y, Shared s2 y → Shared s y) → (∀ j, s2.lk j = none ↔ s.lk j = none) →
          InvX s2 (tr1 ++ [retEv s (S i)] ++ [naEv (S i) [] [Loc.link i, Loc.slotPtr i]]) none := by
        intro s2 e1 e2 e3 e4
        have h2 := inv_ret (t := S i) (s' := s2) hI.q h1 (fun j y hy => by rw [e1] at hy; exact held_eq hk hy)
          (fun y hy => by rwa [e2] at hy) (fun y hy => .inl (e3 y hy)) e4
        exact inv_own h2 ((e4 i).2 hlk) (by simp)
      simp only [hx, returnFreeSlot] at hs
      cases hq : s.wq with
      | nil =>
        simp only [hq] at hs
        have hsh : ∀ y, Shared { s with sl := set s.sl i none, free := s.free ++ [x] } y → Shared s y := by
          intro y hy
          rcases hy with h3 | h3 | ⟨j, h3⟩
          · rcases List.mem_append.1 h3 with h3 | h3
            · exact .inl h3
            · simp at h3; subst h3; exact .inr (.inr ⟨i, hx⟩)
          · exact .inr (.inl h3)
          · by_cases hj : j = i
            · subst hj; simp at h3
            · simp only [set_ne _ _ hj] at h3; exact .inr (.inr ⟨j, h3⟩)
        cases k <;> cases hs <;> exact key _ rfl rfl hsh (fun _ => Iff.rfl)
      | cons j q =>
        obtain ⟨hji, hsj⟩ := head_sl hI.q hq
        have hne : j ≠ i := by rintro rfl; rw [hi] at hji; cases hji
        obtain ⟨l, hl, _⟩ := (hI.q.mem j).1 (by simp [hq])
        simp only [hq, hl] at hs
        have hsh : ∀ y, Shared { s with sl := set (set s.sl i none) j (some x) } y → Shared s y := by
          intro y hy
          rcases hy with h3 | h3 | ⟨j', h3⟩
          · exact .inl h3
          · exact .inr (.inl h3)
          · by_cases hj : j' = j
            · subst hj; simp at h3; subst h3; exact .inr (.inr ⟨i, hx⟩)
            · simp only [set_ne _ _ hj] at h3
              by_cases hj2 : j' = i
              · subst hj2; simp at h3
              · simp only [set_ne _ _ hj2] at h3; exact .inr (.inr ⟨j', h3⟩)
        have hlk2 : ∀ j', set s.lk j (some { l with popped := true }) j' = none ↔ s.lk j' = none := by
          intro j'
          by_cases hj : j' = j
          · subst hj; simp [hl]
          · simp [set_ne _ _ hj]
        cases k <;> cases hs <;> exact key _ rfl rfl hsh hlk2
  · rename_i v x hi
    rw [hi]
    cases hs
    obtain ⟨own, ho⟩ := hI.o
    have hx : (s.snd i).held = some x := by rw [hi]; rfl
    obtain ⟨u1, u2, u3⟩ := held_unique ho hx
    exact inv_slot h (h.held i x hx) (by simp) (fun j hj => by rw [u1 j hj]) (fun h1 => absurd h1 u2) u3
      (fun j y hy => held_eq (by rw [hi]; rfl) hy) (fun y hy => hy) (fun y hy => hy) rfl
  · rename_i v x hi
    rw [hi]
    cases hs
    refine inv_csq h (by simp) (fun j y hy => .inl ?_) (fun y hy => .inl hy) (fun y hy => ?_) rfl
    · by_cases hj : j = i
      · subst hj; simp [Pc.held] at hy
      · simpa [set_ne _ _ hj] using hy
    · rcases hy with h1 | h1 | h1
      · exact .inl (.inl h1)
      · rcases List.mem_append.1 h1 with h1 | h1
        · exact .inl (.inr (.inl h1))
        · simp at h1; subst h1; exact .inr (.inl ⟨i, rfl, by rw [hi]; rfl⟩)
      · exact .inl (.inr (.inr h1))
  · rename_i hi
    rw [hi]
    have key : ∀ s2 : St T, s2.snd = s.snd → s2.rx = s.rx → s2.free = s.free → s2.ready = s.ready → s2.sl = s.sl → s2.lk = s.lk →
        InvX { s2 with snd := set s.snd i .idle } (tr ++ [csEv cs (S i) [] [Loc.receiverWaker]]) none := by
      intro s2 e1 e2 e3 e4 e5 e6
      exact inv_csq h (by simp) (fun j y hy => .inl (held_eq (by rw [hi]; rfl) hy)) (fun y hy => .inl (by simpa [e2] using hy))
        (fun y hy => .inl (by simpa [Shared, e3, e4, e5] using hy)) (by simp [e6])
    cases hw : s.rwk with
    | none => simp only [wakeR, hw] at hs; cases hs; simpa [hw] using key s rfl rfl rfl rfl rfl rfl
    | some w =>
      simp only [wakeR, hw] at hs; cases hs
      exact key { s with rwk := none } rfl rfl rfl rfl rfl rfl
  · rename_i hi
    rw [hi]
    have key : ∀ s2 : St T, s2.snd = s.snd → s2.rx = s.rx → s2.free = s.free → s2.ready = s.ready → s2.sl = s.sl → s2.lk = s.lk →
        InvX { s2 with snd := set s.snd i .absent } (tr ++ [csEv cs (S i) [] [Loc.receiverWaker]]) none := by
      intro s2 e1 e2 e3 e4 e5 e6
      exact inv_csq h (by simp) (fun j y hy => .inl (held_eq (by rw [hi]; rfl) hy)) (fun y hy => .inl (by simpa [e2] using hy))
        (fun y hy => .inl (by simpa [Shared, e3, e4, e5] using hy)) (by simp [e6])
    cases hw : s.rwk with
    | none => simp only [wakeR, hw] at hs; cases hs; simpa [hw] using key s rfl rfl rfl rfl rfl rfl
    | some w =>
      simp only [wakeR, hw] at hs; cases hs
      exact key { s with rwk := none } rfl rfl rfl rfl rfl rfl

theorem inv_goR {n : Nat} {s s' : St T} {e} {tr : List (MEv Loc)} (hI : Inv n s) (h : InvX s tr none)
    (hs : goR n s = some (s', e)) : InvX s' (tr ++ emitR s) none := by
  obtain ⟨own, ho⟩ := hI.o
  unfold goR at hs
  unfold emitR
  split at hs
  · cases hs
  · cases hs
  · cases hs
  · rename_i w hr
    rw [hr]
    have key : ∀ s2 : St T, s2.snd = s.snd → s2.free = s.free → s2.ready = s.ready → s2.sl = s.sl → s2.lk = s.lk →
        InvX { s2 with rx := .tr0 (some w) } (tr ++ [csEv cs R [] [Loc.receiverWaker]]) none := by
      intro s2 e1 e3 e4 e5 e6
      exact inv_csq h (by simp) (fun j y hy => .inl (by simpa [e1] using hy)) (fun y hy => by simp [Rx.held] at hy)
        (fun y hy => .inl (by simpa [Shared, e3, e4, e5] using hy)) (by simp [e6])
    simp only [register] at hs
    cases hw : s.rwk with
    | none => simp only [hw] at hs; cases hs; exact key { s with rwk := some w } rfl rfl rfl rfl rfl
    | some w2 =>
      simp only [hw] at hs
      by_cases h2 : w2 = w
      · subst h2; simp only [if_true] at hs; cases hs; simpa [hw] using key s rfl rfl rfl rfl rfl
      · simp only [h2, if_false] at hs; cases hs; exact key { s with rwk := some w } rfl rfl rfl rfl rfl
  · rename_i m hr
    rw [hr]
    split at hs <;> cases hs
    · rename_i x q hq
      refine inv_csq h (by simp) (fun j y hy => .inl hy) (fun y hy => ?_) (fun y hy => .inl ?_) rfl
      · simp [Rx.held] at hy; subst hy; exact .inr ⟨rfl, .inr (.inl (by rw [hq]; simp))⟩
      · rcases hy with h1 | h1 | h1
        · exact .inl h1
        · exact .inr (.inl (by rw [hq]; exact List.mem_cons_of_mem _ h1))
        · exact .inr (.inr h1)
    · exact inv_csq h (by simp) (fun j y hy => .inl hy) (fun y hy => by simp [Rx.held] at hy) (fun y hy => .inl hy) rfl
  · rename_i m x hr
    rw [hr]
    have hx : s.rx.held = some x := by rw [hr]; rfl
    obtain ⟨u1, u2⟩ := rx_unique ho hx
    split at hs <;> cases hs
    · exact inv_slot h (h.rx x hx) (by simp) (fun j hj => absurd hj (u1 j)) (fun _ => rfl) u2
        (fun j y hy => hy) (fun y hy => by simpa [Rx.held, hr] using hy) (fun y hy => hy) rfl
    · exact inv_slot h (h.rx x hx) (by simp) (fun j hj => absurd hj (u1 j)) (fun _ => rfl) u2
        (fun j y hy => hy) (fun y hy => hy) (fun y hy => hy) rfl
  · rename_i m x v hr
    rw [hr]
    have hx : s.rx.held = some x := by rw [hr]; rfl
    simp only [returnFreeSlot] at hs
    cases hq : s.wq with
    | nil =>
      simp only [hq] at hs
      cases hs
      refine inv_ret hI.q h (fun j y hy => hy) (fun y hy => by simp [Rx.held] at hy) (fun y hy => ?_) (fun _ => Iff.rfl)
      rcases hy with h3 | h3 | h3
      · rcases List.mem_append.1 h3 with h3 | h3
        · exact .inl (.inl h3)
        · simp at h3; subst h3; exact .inr ⟨rfl, hx⟩
      · exact .inl (.inr (.inl h3))
      · exact .inl (.inr (.inr h3))
    | cons j q =>
      obtain ⟨l, hl, _⟩ := (hI.q.mem j).1 (by simp [hq])
      simp only [hq, hl] at hs
      cases hs
      refine inv_ret hI.q h (fun j y hy => hy) (fun y hy => by simp [Rx.held] at hy) (fun y hy => ?_) (fun j' => ?_)
      · rcases hy with h3 | h3 | ⟨j', h3⟩
        · exact .inl (.inl h3)
        · exact .inl (.inr (.inl h3))
        · by_cases hj : j' = j
          · subst hj; simp at h3; subst h3; exact .inr ⟨rfl, hx⟩
          · simp only [set_ne _ _ hj] at h3; exact .inl (.inr (.inr ⟨j', h3⟩))
      · by_cases hj : j' = j
        · subst hj; simp [hl]
        · simp [set_ne _ _ hj]
  · rename_i m hr
    rw [hr]
    split at hs <;> cases hs
    · exact inv_csq h (by simp) (fun j y hy => .inl hy) (fun y hy => by simp [Rx.held] at hy) (fun y hy => .inl hy) rfl
    · exact inv_csq h (by simp) (fun j y hy => .inl hy) (fun y hy => by cases m <;> simp [Rx.held, emptyResult] at hy)
        (fun y hy => .inl hy) rfl
  · rename_i hr
    rw [hr]
    cases hs
    exact inv_csq h (by simp) (fun j y hy => .inl hy) (fun y hy => by simp [Rx.held] at hy) (fun y hy => .inl hy) rfl
  · rename_i hr
    rw [hr]
    split at hs <;> cases hs
    · rename_i x hx
      have hq := getLast?_split hx
      refine inv_csq h (by simp) (fun j y hy => .inl hy) (fun y hy => ?_) (fun y hy => .inl ?_) rfl
      · simp [Rx.held] at hy; subst hy; exact .inr ⟨rfl, .inr (.inl (by rw [hq]; simp))⟩
      · rcases hy with h1 | h1 | h1
        · exact .inl h1
        · exact .inr (.inl (by rw [hq]; exact List.mem_append_left _ h1))
        · exact .inr (.inr h1)
    · exact inv_csq h (by simp) (fun j y hy => .inl hy) (fun y hy => by simp [Rx.held] at hy) (fun y hy => .inl hy) rfl
  · rename_i x hr
    rw [hr]
    have hx : s.rx.held = some x := by rw [hr]; rfl
    obtain ⟨u1, u2⟩ := rx_unique ho hx
    split at hs <;> cases hs
    · exact inv_slot h (h.rx x hx) (by simp) (fun j hj => absurd hj (u1 j)) (fun _ => rfl) u2
        (fun j y hy => hy) (fun y hy => by simp [Rx.held] at hy) (fun y hy => hy) rfl
    · exact inv_slot h (h.rx x hx) (by simp) (fun j hj => absurd hj (u1 j)) (fun _ => rfl) u2
        (fun j y hy => hy) (fun y hy => hy) (fun y hy => hy) rfl
  · rename_i hr
    rw [hr]
    have key : ∀ s2 : St T, s2.snd = s.snd → s2.rx.held = none → s2.free = s.free → s2.ready = s.ready → s2.sl = s.sl →
        (∀ j, s2.lk j = none ↔ s.lk j = none) → InvX s2 (tr ++ [csEv cs R (s.wq.map Loc.link) []]) none := by
      intro s2 e1 e2 e3 e4 e5 e6
      refine inv_cs1 h (by simp [Loc.isSlot]) (by simp) (fun l hl => ?_) (by simp)
        ⟨fun j y hy => .inl (by simpa [e1] using hy), fun y hy => by simp [e2] at hy,
          fun y hy => .inl (by simpa [Shared, e3, e4, e5] using hy), fun j hj => .inr ?_, fun j hj => .inl ?_⟩
      · obtain ⟨k, hk, rfl⟩ := List.mem_map.1 hl
        exact .inr ((h.lk k (wq_lk hI.q hk)).2 (by simp))
      · have hj := (e6 j).1 hj
        have := lk_none_wq hI.q hj
        exact ⟨hj, by simpa using this, by simp⟩
      · cases hl : s.lk j with
        | none => rw [(e6 j).2 hl] at hj; cases hj
        | some l => rfl
    split at hs
    · rename_i j q hq
      obtain ⟨l, hl, _⟩ := (hI.q.mem j).1 (by simp [hq])
      simp only [hl] at hs
      cases hs
      refine key _ rfl (by simp [hr, Rx.held]) rfl rfl rfl (fun j' => ?_)
      by_cases hj : j' = j
      · subst hj; simp [hl]
      · simp [set_ne _ _ hj]
    · cases hs
      exact key _ rfl rfl rfl rfl rfl (fun _ => Iff.rfl)

theorem inv_poll {n : Nat} {s : St T} {i w : Nat} {v : T} {tr : List (MEv Loc)} (hI : Inv n s) (h : InvX s tr none)
    (hi : s.snd i = .snd v) :
    InvX (pollSend s i v w)
      (tr ++ [csEv cs (S i) (.receiverDropped :: s.wq.map .link) [.freeq, .link i, .slotPtr i]]) none := by
  have hown : ∀ l, l = Loc.link i ∨ l = Loc.slotPtr i → AllSeen tr (S i) l ∨ AllRel tr cs l := by
    intro l hl
    cases hk : s.lk i with
    | none => rcases hl with rfl | rfl; exact .inl (h.own i hk).1; exact .inl (h.own i hk).2
    | some k =>
      have := h.lk i (by simp [hk])
      rcases hl with rfl | rfl
      · exact .inr (this.2 (by simp))
      · exact .inr this.1
  have key : ∀ s2 : St T, (∀ j x, (s2.snd j).held = some x → (s.snd j).held = some x ∨ (S j = S i ∧ Shared s x)) →
      s2.rx = s.rx → (∀ x, Shared s2 x → Shared s x) → (∀ j, j ≠ i → s2.lk j = s.lk j) →
      InvX s2 (tr ++ [csEv cs (S i) (.receiverDropped :: s.wq.map .link) [.freeq, .link i, .slotPtr i]]) none := by
    intro s2 m1 m2 m3 m4
    refine inv_cs1 h (fun l hl => ?_) (by simp [S]) (fun l hl => .inr ?_) (fun l hl => ?_)
      ⟨m1, fun x hx => .inl (by rwa [m2] at hx), fun x hx => .inl (m3 x hx), fun j hj => ?_, fun j hj => ?_⟩
    · simp at hl
      rcases hl with rfl | ⟨k, _, rfl⟩ | rfl | rfl | rfl <;> rfl
    · rcases List.mem_cons.1 hl with rfl | hl
      · exact h.q _ (by simp)
      · obtain ⟨k, hk, rfl⟩ := List.mem_map.1 hl
        exact (h.lk k (wq_lk hI.q hk)).2 (by simp)
    · simp at hl
      rcases hl with rfl | hl
      · exact .inr (h.q _ (by simp))
      · exact hown l hl
    · by_cases hji : j = i
      · exact .inl (by rw [hji])
      · rw [m4 j hji] at hj
        have := lk_none_wq hI.q hj
        refine .inr ⟨hj, ?_, ?_⟩
        · simp; exact ⟨this, hji⟩
        · simp; exact hji
    · by_cases hji : j = i
      · exact .inr (by rw [hji])
      · rw [m4 j hji] at hj; exact .inl hj
  have hne : ∀ {p : Pc T}, p.held = none → ∀ j x, (set s.snd i p j).held = some x →
      (s.snd j).held = some x ∨ (S j = S i ∧ Shared s x) := by
    intro p hp j x hx
    exact .inl (held_eq (by rw [hi, hp]; rfl) hx)
  have ht := trans_pollSend (n := n) (w := w) hi
  unfold pollSend
  split
  · exact key _ (hne rfl) rfl (fun x hx => hx) (fun j hj => rfl)
  · split
    · rename_i l hl
      split
      · split
        · rename_i x hx
          refine key _ (fun j y hy => ?_) rfl (fun y hy => ?_) (fun j hj => by simp [set_ne _ _ hj])
          · by_cases hj : j = i
            · subst hj
              simp [Pc.held] at hy; subst hy
              exact .inr ⟨rfl, .inr (.inr ⟨j, hx⟩)⟩
            · simp only [set_ne _ _ hj] at hy; exact .inl hy
          · rcases hy with h3 | h3 | ⟨j', h3⟩
            · exact .inl h3
            · exact .inr (.inl h3)
            · by_cases hj : j' = i
              · subst hj; simp at h3
              · simp only [set_ne _ _ hj] at h3; exact .inr (.inr ⟨j', h3⟩)
        · exact key _ (hne rfl) rfl (fun x hx => hx) (fun j hj => by simp [set_ne _ _ hj])
      · exact key _ (fun j x hx => .inl hx) rfl (fun x hx => hx) (fun j hj => rfl)
    · split
      · exact key _ (fun j x hx => .inl hx) rfl (fun x hx => hx) (fun j hj => by simp [set_ne _ _ hj])
      · split
        · rename_i x hx
          have hf := getLast?_split hx
          refine key _ (fun j y hy => ?_) rfl (fun y hy => ?_) (fun j hj => rfl)
          · by_cases hj : j = i
            · subst hj
              simp [Pc.held] at hy; subst hy
              exact .inr ⟨rfl, .inl (by rw [hf]; simp)⟩
            · simp only [set_ne _ _ hj] at hy; exact .inl hy
          · rcases hy with h3 | h3 | h3
            · exact .inl (by rw [hf]; exact List.mem_append_left _ h3)
            · exact .inr (.inl h3)
            · exact .inr (.inr h3)
        · exact key _ (fun j x hx => .inl hx) rfl (fun x hx => hx) (fun j hj => rfl)

theorem inv_step {n : Nat} {s s' : St T} {a : Act T} {e} {tr : List (MEv Loc)} (hI : Inv n s) (h : InvX s tr none)
    (hs : step n s a = some (s', e)) : InvX s' (tr ++ emit s a) none := by
  cases a with
  | clone i j =>
    simp only [step] at hs; split at hs <;> cases hs
    rename_i hi hj
    exact inv_csq h (by simp) (fun k x hx => .inl (held_eq (by rw [hj]; rfl) hx)) (fun x hx => .inl hx)
      (fun x hx => .inl hx) rfl
  | dropS i =>
    simp only [step] at hs; split at hs <;> cases hs
    rename_i hi
    exact inv_csq h (by simp) (fun k x hx => .inl (held_eq (by rw [hi]; split <;> rfl) hx)) (fun x hx => .inl hx)
      (fun x hx => .inl hx) rfl
  | startTry i v =>
    simp only [step] at hs; split at hs <;> cases hs
    rename_i hi
    simp only [emit, List.append_nil]
    exact inv_none h (fun j x hx => held_eq (by rw [hi]; rfl) hx) rfl (fun x hx => hx) rfl
  | startSend i v =>
    simp only [step] at hs; split at hs <;> cases hs
    rename_i hi
    have hlk : s.lk i = none := by
      cases hl : s.lk i with
      | none => rfl
      | some l => have := hI.q.lkpc i l hl; rw [hi] at this; cases this
    have hsl := idle_sl hI.q hi
    refine inv_none (inv_own (i := i) (rd := []) (wr := [.link i, .slotPtr i]) h hlk (by simp))
      (fun j x hx => held_eq (by rw [hi]; rfl) hx) rfl (fun x hx => ?_) (by funext j; simp only [set_apply]; split <;> simp_all)
    rcases hx with h3 | h3 | ⟨j', h3⟩
    · exact .inl h3
    · exact .inr (.inl h3)
    · by_cases hj : j' = i
      · subst hj; simp at h3
      · simp only [set_ne _ _ hj] at h3; exact .inr (.inr ⟨j', h3⟩)
  | poll i w => simp only [step] at hs; split at hs <;> cases hs; exact inv_poll hI h ‹_›
  | cancel i =>
    simp only [step] at hs; split at hs <;> cases hs
    rename_i hi
    simp only [emit, List.append_nil]
    exact inv_none h (fun j x hx => held_eq (by rw [hi]; rfl) hx) rfl (fun x hx => hx) rfl
  | go i => exact inv_goS hI h hs
  | sQuery i =>
    simp only [step] at hs; split at hs <;> cases hs
    exact inv_csq h (by simp) (fun k x hx => .inl hx) (fun x hx => .inl hx) (fun x hx => .inl hx) rfl
  | startTryRecv =>
    simp only [step] at hs; split at hs <;> cases hs
    rename_i hr
    simp only [emit, List.append_nil]
    exact inv_none h (fun j x hx => hx) (by rw [hr]; rfl) (fun x hx => hx) rfl
  | pollRecv w =>
    simp only [step] at hs
    split at hs <;> cases hs
    · rename_i hr
      simp only [emit, List.append_nil]
      exact inv_none h (fun j x hx => hx) (by rw [hr]; rfl) (fun x hx => hx) rfl
    · rename_i hr
      simp only [emit, List.append_nil]
      exact inv_none h (fun j x hx => hx) (by rw [hr]; rfl) (fun x hx => hx) rfl
  | cancelRecv =>
    simp only [step] at hs; split at hs <;> cases hs
    rename_i hr
    simp only [emit, List.append_nil]
    exact inv_none h (fun j x hx => hx) (by rw [hr]; rfl) (fun x hx => hx) rfl
  | dropR =>
    simp only [step] at hs; split at hs <;> cases hs
    rename_i hr
    simp only [emit, List.append_nil]
    exact inv_none h (fun j x hx => hx) (by rw [hr]; rfl) (fun x hx => hx) rfl
  | goR => exact inv_goR hI h hs
  | rQuery =>
    simp only [step] at hs; split at hs <;> cases hs
    exact inv_csq h (by simp) (fun k x hx => .inl hx) (fun x hx => .inl hx) (fun x hx => .inl hx) rfl

theorem inv_trace {n : Nat} : ∀ (as : List (Act T)) (s : St T) (tr : List (MEv Loc)), Inv n s → InvX s tr none →
    RaceFree (tr ++ trace n s as)
  | [], s, tr, _, h => by simpa [trace] using h.rf
  | a :: as, s, tr, hI, h => by
    simp only [trace]
    split
    · simpa using h.rf
    · rename_i s1 e hs
      have h1 := inv_trace as s1 (tr ++ emit s a) (inv_tr hI (trans_of_step hs)) (inv_step hI h hs)
      simpa using h1

/-- C111. Whatever the senders and the receiver of a channel do, however their steps interleave and on whatever threads or
cores they run: any two conflicting non-atomic accesses to the memory of the channel, or to the parts of a `send` future
that others can reach, are ordered by happens-before. The only synchronisation used is that of `critical_section`. -/
theorem C111_channel_race_free (n : Nat) (as : List (Act T)) : RaceFree (trace n (init n : St T) as) := by
  simpa using inv_trace as (init n : St T) [] (Verif.Channel.inv_init n) (inv_init n)

/-! ### The theorem is not vacuous -/

/-- A hand-over of a value, and of its slot back: sender 0 sends 5, the receiver receives it, sender 0 sends 6. -/
def handOver : List (Act Nat) :=
  [.startTry 0 5, .go 0, .go 0, .go 0, .go 0, .go 0, .go 0, .startTryRecv, .goR, .goR, .goR,
   .startTry 0 6, .go 0, .go 0, .go 0, .go 0, .go 0, .go 0]

/-- The memory events of `handOver`: the slot is written by the sender outside of any critical section (position 2), read by
the receiver outside of any critical section (position 6), and written again by the sender (position 10). -/
example : trace 1 (init 1) handOver =
    [csEv cs 1 [.receiverDropped] [], csEv cs 1 [] [.freeq], naEv 1 [] [.slot 0], csEv cs 1 [] [.readyq],
     csEv cs 1 [] [.receiverWaker], csEv cs 0 [] [.readyq], naEv 0 [.slot 0] [], csEv cs 0 [] [.freeq],
     csEv cs 1 [.receiverDropped] [], csEv cs 1 [] [.freeq], naEv 1 [] [.slot 0], csEv cs 1 [] [.readyq],
     csEv cs 1 [] [.receiverWaker]] := by decide +kernel

/-- The two accesses do conflict. -/
example : Conflict (naEv 1 [] [Loc.slot 0]) (naEv 0 [Loc.slot 0] []) := ⟨.slot 0, .inl ⟨by simp [naEv], .inl (by simp [naEv])⟩⟩

/-- The same two accesses without the critical sections around them are a data race. -/
example : ¬ RaceFree [naEv 1 [] [Loc.slot 0], naEv 0 [Loc.slot 0] []] := by
  intro h
  have h1 := h 0 1 _ _ (by omega) rfl rfl ⟨.slot 0, .inl ⟨by simp [naEv], .inl (by simp [naEv])⟩⟩
  have key : ∀ i j, HB [naEv 1 [] [Loc.slot 0], naEv 0 [Loc.slot 0] []] i j → i = 0 → j = 1 → False := by
    have bound : ∀ i j, HB [naEv 1 [] [Loc.slot 0], naEv 0 [Loc.slot 0] []] i j → i < j ∧ j < 2 := by
      intro i j h
      induction h with
      | po lt _ hb _ => exact ⟨lt, get_lt hb⟩
      | sw lt _ hb _ _ => exact ⟨lt, get_lt hb⟩
      | trans _ _ h1 h2 => exact ⟨by omega, h2.2⟩
    intro i j h
    cases h with
    | po lt ha hb same => rintro rfl rfl; cases ha; cases hb; cases same
    | sw lt ha hb hr hk => rintro rfl rfl; cases ha; cases hr
    | trans h1 h2 => rintro rfl rfl; have := bound _ _ h1; have := bound _ _ h2; omega
  exact key 0 1 h1 rfl rfl

/-- A waiting sender: its slot pointer is written by the receiver and then read and destroyed by the sender itself. -/
example : (trace 1 (init 1) ([.startTry 0 5, .go 0, .go 0, .go 0, .go 0, .go 0, .go 0, .startSend 0 6, .poll 0 7,
    .startTryRecv, .goR, .goR, .goR, .poll 0 7, .go 0, .go 0] : List (Act Nat))).drop 7 =
    [csEv cs 0 [] [.readyq], naEv 0 [.slot 0] [], csEv cs 0 [.link 0] [.freeq, .slotPtr 0],
     csEv cs 1 [.receiverDropped] [.freeq, .link 0, .slotPtr 0], naEv 1 [.link 0] [], naEv 1 [] [.slotPtr 0],
     naEv 1 [] [.link 0, .slotPtr 0]] := by decide +kernel

end Verif.Race.Channel
