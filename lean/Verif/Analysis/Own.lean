import Verif.Analysis.Says

/-! # Ownership, ceilings, Send and Sync: lemmas -/

namespace Verif.Analysis

theorem level_owned (p : Nat) : (Ownership.owned p).level = p := rfl
theorem level_co (p : Nat) : (Ownership.coOwned p).level = p := rfl
theorem level_cont (p : Nat) : (Ownership.contended p).level = p := rfl

theorem exists_contended {o : Ownership} (h : ¬ ∀ c, o ≠ .contended c) : ∃ c, o = .contended c := by
  cases o with
  | contended c => exact ⟨c, rfl⟩
  | owned p => exact absurd (fun c => by simp) h
  | coOwned p => exact absurd (fun c => by simp) h

structure OwnInv (app : App) (l : List (Nat × Ident × Access)) (s : OwnSt) : Prop where
  used : ∀ r, r ∈ s.used ↔ ∃ p a, (p, r, a) ∈ l
  none : ∀ r, get? s.ownerships r = none → ∀ p a, (p, r, a) ∉ l
  max : ∀ r o, get? s.ownerships r = some o → ∀ p a, (p, r, a) ∈ l → p ≤ o.level
  att : ∀ r o, get? s.ownerships r = some o → ∃ a, (o.level, r, a) ∈ l
  single : ∀ r o, get? s.ownerships r = some o → (∀ c, o ≠ .contended c) → ∀ p a, (p, r, a) ∈ l → p = o.level
  two : ∀ r c, get? s.ownerships r = some (.contended c) → ∃ p1 a1 p2 a2, (p1, r, a1) ∈ l ∧ (p2, r, a2) ∈ l ∧ p1 ≠ p2
  sync : ∀ r c res, get? s.ownerships r = some (.contended c) → (∀ p a, (p, r, a) ∈ l → a = .shared) → get? app.sharedRes r = some res → res.ty ∈ s.syncTypes
  syncOnly : ∀ ty, ty ∈ s.syncTypes → ∃ r res p1 a1 p2, get? app.sharedRes r = some res ∧ res.ty = ty ∧ (p1, r, a1) ∈ l ∧ (p2, r, .shared) ∈ l ∧ p1 ≠ p2

theorem own_nil (app : App) : OwnInv app [] {} := by
  constructor <;> simp [get?]

theorem own_step {app : App} {l : List (Nat × Ident × Access)} {x : Nat × Ident × Access} {s s' : OwnSt} (hi : OwnInv app l s) (h : ownStep app s x = .ok s') :
    OwnInv app (l ++ [x]) s' := by
  obtain ⟨p, r, a⟩ := x
  unfold ownStep at h
  simp only at h
  have mem : ∀ p' r' a', (p', r', a') ∈ l ++ [(p, r, a)] ↔ (p', r', a') ∈ l ∨ (p' = p ∧ r' = r ∧ a' = a) := by
    intro p' r' a'; simp
  have hused : ∀ r', r' ∈ (if r ∈ s.used then s.used else s.used ++ [r]) ↔ ∃ p' a', (p', r', a') ∈ l ++ [(p, r, a)] := by
    intro r'
    simp only [mem]
    have := hi.used r'
    have := hi.used r
    split <;> grind
  split at h
  · cases h
  · rename_i res hres
    cases ho : get? s.ownerships r with
    | none =>
      rw [ho] at h
      cases h
      obtain ⟨h1, h2, h3, h4, h5, h6, h7, h8⟩ := hi
      have hno := h2 r ho
      constructor
      · exact hused
      all_goals simp only [mem, get?_insert]
      · grind
      · intro r' o' hh p' a' hm
        split at hh
        · cases hh; simp only [level_owned, level_cont]; grind
        · grind
      · intro r' o' hh
        split at hh
        · cases hh; simp only [level_owned, level_cont]; grind
        · grind
      · intro r' o' hh hc p' a' hm
        split at hh
        · cases hh; simp only [level_owned, level_cont]; grind
        · grind
      · intro r' c hh
        split at hh
        · cases hh
        · obtain ⟨p1, a1, p2, a2, hh⟩ := h6 r' c hh
          exact ⟨p1, a1, p2, a2, .inl hh.1, .inl hh.2.1, hh.2.2⟩
      · intro r' c res' hh hall
        split at hh
        · cases hh
        · exact h7 r' c res' hh (fun p a hm => hall p a (.inl hm))
      · intro ty hty
        obtain ⟨r, res, p1, a1, p2, hh⟩ := h8 ty hty
        exact ⟨r, res, p1, a1, p2, by grind⟩
    | some o =>
      rw [ho] at h
      simp only at h
      split at h
      · rename_i hne
        cases h
        obtain ⟨h1, h2, h3, h4, h5, h6, h7, h8⟩ := hi
        have hmx := h3 r o ho
        obtain ⟨a0, hat⟩ := h4 r o ho
        constructor
        · exact hused
        all_goals simp only [mem, get?_insert]
        · grind
        · intro r' o' hh p' a' hm
          split at hh
          · rename_i hr; cases hh; simp only [level_owned, level_cont]
            rcases hm with hm | ⟨rfl, -, -⟩
            · have := hmx p' a' (hr ▸ hm); omega
            · omega
          · grind
        · intro r' o' hh
          split at hh
          · rename_i hr
            cases hh; simp only [level_owned, level_cont]
            by_cases hle : o.level ≤ p
            · rw [Nat.max_eq_right hle]; exact ⟨a, .inr ⟨rfl, hr, rfl⟩⟩
            · rw [Nat.max_eq_left (by omega)]; exact ⟨a0, .inl (hr ▸ hat)⟩
          · grind
        · intro r' o' hh hc p' a' hm
          split at hh
          · cases hh; exact absurd rfl (hc _)
          · grind
        · intro r' c hh
          split at hh
          · rename_i hr; subst hr
            exact ⟨o.level, a0, p, a, .inl hat, .inr ⟨rfl, rfl, rfl⟩, fun e => hne e.symm⟩
          · obtain ⟨p1, a1, p2, a2, hh⟩ := h6 r' c hh
            exact ⟨p1, a1, p2, a2, .inl hh.1, .inl hh.2.1, hh.2.2⟩
        · intro r' c res' hh hall hres'
          split at hh
          · rename_i hr; subst hr
            rw [hres] at hres'; cases hres'
            have : a = .shared := hall p a (.inr ⟨rfl, rfl, rfl⟩)
            rw [if_pos this]; simp
          · have := h7 r' c res' hh (fun p a hm => hall p a (.inl hm)) hres'
            split
            · exact List.mem_append_left _ this
            · exact this
        · intro ty hty
          have hold : ty ∈ s.syncTypes → _ := fun hty => h8 ty hty
          split at hty
          · rename_i ha
            rcases List.mem_append.mp hty with hty | hty
            · obtain ⟨r, res, p1, a1, p2, hh⟩ := hold hty
              exact ⟨r, res, p1, a1, p2, by grind⟩
            · simp at hty; subst hty
              exact ⟨r, res, o.level, a0, p, hres, rfl, .inl hat, .inr ⟨rfl, rfl, ha.symm⟩, fun e => hne e.symm⟩
          · obtain ⟨r, res, p1, a1, p2, hh⟩ := hold hty
            exact ⟨r, res, p1, a1, p2, by grind⟩
      · rename_i hne
        have hpe : p = o.level := by simpa using hne
        have key : ∀ o', o'.level = o.level → ((∀ c, o' ≠ .contended c) ↔ (∀ c, o ≠ .contended c)) → ∀ (own' : Map Ownership),
            (∀ r', get? own' r' = if r' = r then some o' else get? s.ownerships r') →
            OwnInv app (l ++ [(p, r, a)]) { used := if r ∈ s.used then s.used else s.used ++ [r], ownerships := own', syncTypes := s.syncTypes } := by
          intro o' hlev hcont own' hown
          obtain ⟨h1, h2, h3, h4, h5, h6, h7, h8⟩ := hi
          have hmx := h3 r o ho
          obtain ⟨a0, hat⟩ := h4 r o ho
          constructor
          · exact hused
          all_goals simp only [mem, hown]
          · intro r' hh p' a'
            split at hh
            · cases hh
            · have := h2 r' hh p' a'; grind
          · intro r' ow hh p' a' hm
            split at hh
            · cases hh; rw [hlev]; grind
            · grind
          · intro r' ow hh
            split at hh
            · rename_i hr
              cases hh; rw [hlev, ← hpe]; exact ⟨a, .inr ⟨rfl, hr, rfl⟩⟩
            · obtain ⟨a', ha'⟩ := h4 r' ow hh; exact ⟨a', .inl ha'⟩
          · intro r' ow hh hc p' a' hm
            split at hh
            · cases hh; rw [hlev]
              have := h5 r o ho (hcont.mp hc)
              grind
            · have := h5 r' ow hh hc p' a'; grind
          · intro r' c hh
            split at hh
            · rename_i hr
              cases hh
              have : ¬ (∀ c, o ≠ .contended c) := fun hc => absurd rfl (hcont.mpr hc c)
              obtain ⟨c', rfl⟩ := exists_contended this
              obtain ⟨p1, a1, p2, a2, hh⟩ := h6 r c' ho
              subst hr
              exact ⟨p1, a1, p2, a2, .inl hh.1, .inl hh.2.1, hh.2.2⟩
            · obtain ⟨p1, a1, p2, a2, hh⟩ := h6 r' c hh
              exact ⟨p1, a1, p2, a2, .inl hh.1, .inl hh.2.1, hh.2.2⟩
          · intro r' c res' hh hall hres'
            split at hh
            · rename_i hr
              cases hh
              have : ¬ (∀ c, o ≠ .contended c) := fun hc => absurd rfl (hcont.mpr hc c)
              obtain ⟨c', rfl⟩ := exists_contended this
              subst hr
              exact h7 r' c' res' ho (fun p a hm => hall p a (.inl hm)) hres'
            · exact h7 r' c res' hh (fun p a hm => hall p a (.inl hm)) hres'
          · intro ty hty
            obtain ⟨r, res, p1, a1, p2, hh⟩ := h8 ty hty
            exact ⟨r, res, p1, a1, p2, by grind⟩
        split at h
        · cases h
          refine key (.coOwned p) ?_ ?_ _ (fun r' => get?_insert)
          · rw [hpe]; rfl
          · simp
        · cases h
          refine key o rfl Iff.rfl _ (fun r' => ?_)
          split
          · rename_i hr; rw [hr, ho]
          · rfl

theorem own_fold {app : App} {s : OwnSt} (h : (sharedAccesses app).foldlM (ownStep app) {} = .ok s) : OwnInv app (sharedAccesses app) s := by
  have := foldlM_inv (OwnInv app) (pre := []) (fun _ _ _ _ hi hs => own_step hi hs) (own_nil app) h
  simpa using this

theorem ownStep_total {app : App} {s : OwnSt} {x : Nat × Ident × Access} (h : has app.sharedRes x.2.1 = true) : ∃ s', ownStep app s x = .ok s' := by
  obtain ⟨p, r, a⟩ := x
  unfold has at h
  obtain ⟨res, hres⟩ := Option.isSome_iff_exists.mp h
  unfold ownStep
  simp only at hres ⊢
  rw [hres]
  simp only
  split
  · split
    · exact ⟨_, rfl⟩
    · split <;> exact ⟨_, rfl⟩
  · exact ⟨_, rfl⟩

theorem foldlM_total {α β : Type} {f : β → α → Res β} {l : List α} {b : β} (h : ∀ a ∈ l, ∀ b, ∃ b', f b a = .ok b') : ∃ b', l.foldlM f b = .ok b' := by
  induction l generalizing b with
  | nil => exact ⟨b, rfl⟩
  | cons a l ih =>
    obtain ⟨b1, hb⟩ := h a List.mem_cons_self b
    obtain ⟨b2, hb2⟩ := ih (b := b1) fun x hx => h x (List.mem_cons_of_mem _ hx)
    exact ⟨b2, by rw [List.foldlM_cons, hb]; exact hb2⟩

/-- the effect of the loop over the locals: the last external local of that name wins -/
theorem ownLocal_fold {l : List (Nat × Ident × TaskLocal)} {o : Map Ownership} {r : Ident} :
    ((∀ p, (p, r, .external) ∉ l) ∧ get? (l.foldl ownLocal o) r = get? o r) ∨
    ∃ p, (p, r, .external) ∈ l ∧ get? (l.foldl ownLocal o) r = some (.owned p) := by
  induction l generalizing o with
  | nil => left; simp
  | cons x l ih =>
    obtain ⟨p, r', k⟩ := x
    rw [List.foldl_cons]
    rcases ih (o := ownLocal o (p, r', k)) with ⟨h1, h2⟩ | ⟨q, h1, h2⟩
    · by_cases hr : r' = r ∧ k = .external
      · obtain ⟨rfl, rfl⟩ := hr
        right
        refine ⟨p, List.mem_cons_self, ?_⟩
        rw [h2]; simp [ownLocal, get?_insert]
      · left
        constructor
        · intro q hq
          rcases List.mem_cons.mp hq with hq | hq
          · cases hq; exact hr ⟨rfl, rfl⟩
          · exact h1 q hq
        · rw [h2]
          unfold ownLocal
          simp only
          split
          · rename_i hk; rw [get?_insert, if_neg (fun e => hr ⟨e.symm, hk⟩)]
          · rfl
    · right; exact ⟨q, List.mem_cons_of_mem _ h1, h2⟩

theorem mem_allLocals {app : App} (hd : ∀ r, (r, .external) ∉ app.init.locals) {p : Nat} {r : Ident} :
    (p, r, .external) ∈ allLocals app ↔ ∃ t, AppLocal app t p r .external := by
  unfold allLocals taskList AppLocal
  simp only [List.mem_flatMap, List.mem_append, List.mem_map, List.mem_singleton, Option.mem_toList, Prod.mk.injEq]
  constructor
  · rintro ⟨tr, (((rfl | ⟨i, hi, rfl⟩) | ⟨nt, hi, rfl⟩) | ⟨nt, hi, rfl⟩), nk, hnk, rfl, rfl, hk⟩
    · exact absurd (hk ▸ hnk : (nk.1, TaskLocal.external) ∈ app.init.locals) (hd _)
    · exact ⟨_, .inl ⟨i, hi, rfl, rfl, hk ▸ hnk⟩⟩
    · exact ⟨nt.1, .inr (.inr ⟨nt.2, hi, rfl, hk ▸ hnk⟩)⟩
    · exact ⟨nt.1, .inr (.inl ⟨nt.2, hi, rfl, hk ▸ hnk⟩)⟩
  · rintro ⟨t, ⟨i, hi, rfl, rfl, h⟩ | ⟨h', hi, rfl, h⟩ | ⟨h', hi, rfl, h⟩⟩
    · exact ⟨_, .inl (.inl (.inr ⟨i, hi, rfl⟩)), _, h, rfl, rfl, rfl⟩
    · exact ⟨_, .inr ⟨_, hi, rfl⟩, _, h, rfl, rfl, rfl⟩
    · exact ⟨_, .inl (.inr ⟨_, hi, rfl⟩), _, h, rfl, rfl, rfl⟩

end Verif.Analysis
