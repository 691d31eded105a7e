import Verif.Watch.Model

/-! # C22 -/

namespace Verif.Watch

variable {T : Type}

/-! ## Vocabulary -/

/-- From the history: the latest written value. -/
def latest : Option T → List (Ev T) → Option T
  | c, [] => c
  | _, .stored v :: tr => latest (some v) tr
  | c, _ :: tr => latest c tr

/-- From the history: whether there is a written value which the reader has not copied (nor a newer one). -/
def unseen : Bool → List (Ev T) → Bool
  | b, [] => b
  | _, .stored _ :: tr => unseen true tr
  | _, .copied (some _) :: tr => unseen false tr
  | b, _ :: tr => unseen b tr

/-- No write fell between the instant at which the reader copied the value and the instant at which it marked it as seen. -/
def Clean (tr : List (Ev T)) : Prop :=
  ∀ a b c v v', tr = a ++ .copied (some v) :: (b ++ .stored v' :: c) → .marked ∈ b

/-- From the history: the last registered waker and whether it has been woken since. -/
def regState : Option (Nat × Bool) → List (Ev T) → Option (Nat × Bool)
  | r, [] => r
  | _, .reg w :: tr => regState (some (w, false)) tr
  | some (w, b), .woke w' :: tr => regState (some (w, b || w == w')) tr
  | r, _ :: tr => regState r tr

/-! ## Lemmas -/

theorem latest_append (a b : List (Ev T)) : ∀ c, latest c (a ++ b) = latest (latest c a) b := by
  induction a with
  | nil => intro c; rfl
  | cons x a ih => intro c; cases x <;> simp [latest, ih]

theorem unseen_append (a b : List (Ev T)) : ∀ c, unseen c (a ++ b) = unseen (unseen c a) b := by
  induction a with
  | nil => intro c; rfl
  | cons x a ih =>
    intro c; cases x <;> simp [unseen, ih]
    case copied r => cases r <;> simp [unseen, ih]

theorem regState_append (a b : List (Ev T)) : ∀ c, regState c (a ++ b) = regState (regState c a) b := by
  induction a with
  | nil => intro c; rfl
  | cons x a ih => intro c; cases x <;> simp [regState, ih]; rcases c with _ | ⟨w, b⟩ <;> simp [regState, ih]

theorem Clean.prefix {a b : List (Ev T)} (h : Clean (a ++ b)) : Clean a := by
  intro x y z v v' hx
  exact h x y (z ++ b) v v' (by rw [hx]; simp)

@[simp, grind =] theorem set_apply (f : Nat → Bool) (i : Nat) (x : Bool) (j : Nat) : set f i x j = if j = i then x else f j := rfl

theorem exec_induct {P : St T → List (Ev T) → Prop}
    (hstep : ∀ s tr a s' e, P s tr → step s a = some (s', e) → P s' (tr ++ e)) :
    ∀ (as : List (Act T)) (s : St T) (tr : List (Ev T)) (s' : St T) (es : List (Ev T)), P s tr →
      exec s as = some (s', es) → P s' (tr ++ es)
  | [], s, tr, s', es, h, he => by cases he; simpa using h
  | a :: as, s, tr, s', es, h, he => by
    simp only [exec] at he
    split at he
    · cases he
    · rename_i s1 e hs
      split at he
      · cases he
      · rename_i s2 es' hs2
        cases he
        have := exec_induct hstep as s1 (tr ++ e) _ es' (hstep _ _ _ _ _ h hs) hs2
        simpa using this

theorem reach_induct {P : St T → List (Ev T) → Prop} (h0 : P init [])
    (hstep : ∀ s tr a s' e, P s tr → step s a = some (s', e) → P s' (tr ++ e)) {s : St T} {tr : List (Ev T)}
    (h : Reach s tr) : P s tr := by
  obtain ⟨as, he⟩ := h
  simpa using exec_induct hstep as init [] s tr h0 he

theorem Reach.step {s s' : St T} {tr e : List (Ev T)} {a : Act T} (h : Reach s tr) (hs : step s a = some (s', e)) :
    Reach s' (tr ++ e) := by
  obtain ⟨as, he⟩ := h
  refine ⟨as ++ [a], ?_⟩
  have : ∀ (as : List (Act T)) (s0 : St T) (tr0 : List (Ev T)), exec s0 as = some (s, tr0) →
      exec s0 (as ++ [a]) = some (s', tr0 ++ e) := by
    intro as
    induction as with
    | nil => intro s0 tr0 h; cases h; simp [exec, hs]
    | cons b as ih =>
      intro s0 tr0 h
      simp only [exec] at h
      split at h
      · cases h
      · rename_i s1 e1 h1
        split at h
        · cases h
        · rename_i s2 es h2
          cases h
          simp [exec, h1, ih _ _ h2]
  exact this as init tr he

theorem latest_of_unseen {tr : List (Ev T)} (h : unseen false tr = true) : latest none tr ≠ none := by
  have : ∀ (tr : List (Ev T)) (b : Bool) (c : Option T), (b = true → c ≠ none) → unseen b tr = true → latest c tr ≠ none := by
    intro tr
    induction tr with
    | nil => intro b c h1 h2; exact h1 h2
    | cons x tr ih =>
      intro b c h1 h2
      cases x <;> simp only [unseen, latest] at *
      case stored v => exact ih _ _ (by simp) h2
      case copied r => cases r <;> simp only [unseen] at h2; exact ih _ _ h1 h2; exact ih _ _ (by simp) h2
      all_goals exact ih _ _ h1 h2
  exact this tr false none (by simp) h

/-! ## Case analysis of the step function (proof device) -/

inductive Tr (s : St T) : Act T → St T → List (Ev T) → Prop where
  | write (i v) (hp : s.wr i = false) :
    Tr s (.write i v) { s with store := some v, seen := false, wr := set s.wr i true } [.stored v]
  | wakeSome (i w) (hp : s.wr i = true) (hw : s.rwk = some w) : Tr s (.wake i) { s with rwk := none, wr := set s.wr i false } [.woke w]
  | wakeNone (i) (hp : s.wr i = true) (hw : s.rwk = none) : Tr s (.wake i) { s with wr := set s.wr i false } []
  | tryNone (hx : s.rx = .idle) (hv : s.store = none) : Tr s .tryGet s [.copied none, .gotRet none]
  | trySome (v) (hx : s.rx = .idle) (hv : s.store = some v) : Tr s .tryGet { s with rx := .got v } [.copied (some v)]
  | changed (hx : s.rx = .idle) : Tr s .changed { s with rx := .ch0 } []
  | poll (w) (hx : s.rx = .ch0 ∨ ∃ w0, s.rx = .pend w0) : Tr s (.poll w) { s with rx := .c0 w } []
  | markT (v) (hx : s.rx = .got v) : Tr s .go { s with seen := true, rx := .idle } [.marked, .gotRet (some v)]
  | regSame (w) (hx : s.rx = .c0 w) (hw : s.rwk = some w) : Tr s .go { s with rx := .c1 w } [.reg w]
  | regOther (w w2) (hx : s.rx = .c0 w) (hw : s.rwk = some w2) (hne : w2 ≠ w) :
    Tr s .go { s with rwk := some w, rx := .c1 w } [.woke w2, .reg w]
  | regNew (w) (hx : s.rx = .c0 w) (hw : s.rwk = none) : Tr s .go { s with rwk := some w, rx := .c1 w } [.reg w]
  | seenT (w) (hx : s.rx = .c1 w) (hb : s.seen = true) : Tr s .go { s with rx := .pend w } []
  | seenF (w) (hx : s.rx = .c1 w) (hb : s.seen = false) : Tr s .go { s with rx := .c2 w } []
  | copyNone (w) (hx : s.rx = .c2 w) (hv : s.store = none) : Tr s .go { s with rx := .pend w } [.copied none]
  | copySome (w v) (hx : s.rx = .c2 w) (hv : s.store = some v) : Tr s .go { s with rx := .c3 w v } [.copied (some v)]
  | markC (w v) (hx : s.rx = .c3 w v) : Tr s .go { s with seen := true, rx := .idle } [.marked, .ret v]
  | cancel (hx : s.rx = .ch0 ∨ ∃ w, s.rx = .pend w) : Tr s .cancel { s with rx := .idle } []

theorem tr_of_step {s s' : St T} {a : Act T} {e : List (Ev T)} (hs : step s a = some (s', e)) : Tr s a s' e := by
  cases a with
  | write i v =>
    simp only [step] at hs; split at hs
    · cases hs
    · rename_i hp; cases hs; exact .write i v (by simpa using hp)
  | wake i =>
    simp only [step] at hs; split at hs
    · rename_i hp
      cases hw : s.rwk with
      | none => simp only [hw] at hs; cases hs; have := Tr.wakeNone i hp hw; rwa [hw] at this
      | some w => simp only [hw] at hs; cases hs; exact .wakeSome i w hp hw
    · cases hs
  | tryGet =>
    cases hx : s.rx <;> simp only [step, hx] at hs <;> try (cases hs; done)
    cases hv : s.store with
    | none => simp only [hv] at hs; cases hs; exact .tryNone hx hv
    | some v => simp only [hv] at hs; cases hs; have := Tr.trySome v hx hv; rwa [hv] at this
  | changed => simp only [step] at hs; cases hx : s.rx <;> simp only [hx] at hs <;> cases hs; exact .changed hx
  | poll w =>
    simp only [step] at hs; cases hx : s.rx <;> simp only [hx] at hs <;> cases hs <;> exact .poll w (by simp [hx])
  | cancel =>
    simp only [step] at hs; cases hx : s.rx <;> simp only [hx] at hs <;> cases hs <;> exact .cancel (by simp [hx])
  | go =>
    cases hx : s.rx with
    | got v => simp only [step, hx] at hs; cases hs; exact .markT v hx
    | c0 w =>
      cases hw : s.rwk with
      | none => simp only [step, hx, hw] at hs; cases hs; exact .regNew w hx hw
      | some w2 =>
        simp only [step, hx, hw] at hs
        split at hs
        · rename_i h; subst h; cases hs; have := Tr.regSame _ hx hw; rwa [hw] at this
        · rename_i h; cases hs; exact .regOther w w2 hx hw h
    | c1 w =>
      cases hb : s.seen with
      | false => simp only [step, hx, hb] at hs; cases hs; have := Tr.seenF w hx hb; rwa [hb] at this
      | true => simp only [step, hx, hb] at hs; cases hs; have := Tr.seenT w hx hb; rwa [hb] at this
    | c2 w =>
      cases hv : s.store with
      | none => simp only [step, hx, hv] at hs; cases hs; have := Tr.copyNone w hx hv; rwa [hv] at this
      | some v => simp only [step, hx, hv] at hs; cases hs; have := Tr.copySome w v hx hv; rwa [hv] at this
    | c3 w v => simp only [step, hx] at hs; cases hs; exact .markC w v hx
    | _ => simp only [step, hx] at hs; cases hs

theorem store_latest {s : St T} {tr : List (Ev T)} (h : Reach s tr) : s.store = latest none tr := by
  refine reach_induct (P := fun s tr => s.store = latest none tr) rfl ?_ h
  intro s tr a s' e hP hs
  rw [latest_append, ← hP]
  clear hP
  cases tr_of_step hs <;> simp_all [latest]

/-- Outside the window between copy and mark, an unset flag with a value present means that the value is unseen. -/
theorem inv1 {s : St T} {tr : List (Ev T)} (h : Reach s tr) :
    ((∀ v, s.rx ≠ .got v) → (∀ w v, s.rx ≠ .c3 w v) → s.seen = false → s.store ≠ none → unseen false tr = true) ∧
    ((∃ w, s.rx = .c2 w) → s.seen = false) := by
  refine reach_induct (P := fun s tr => ((∀ v, s.rx ≠ .got v) → (∀ w v, s.rx ≠ .c3 w v) → s.seen = false → s.store ≠ none →
    unseen false tr = true) ∧ ((∃ w, s.rx = .c2 w) → s.seen = false)) (by simp [init]) ?_ h
  intro s tr a s' e hP hs
  rw [unseen_append]
  cases tr_of_step hs <;> simp_all [unseen] <;> grind

/-- While the reader is between copy and mark, the copy is in the history and neither a mark nor another copy follows it. -/
theorem window {s : St T} {tr : List (Ev T)} (h : Reach s tr) :
    (∀ v, s.rx = .got v → ∃ a b, tr = a ++ .copied (some v) :: b ∧ .marked ∉ b ∧ (∀ r, .copied r ∉ b) ∧ latest none a = some v) ∧
    (∀ w v, s.rx = .c3 w v → ∃ a b, tr = a ++ .copied (some v) :: b ∧ .marked ∉ b ∧ (∀ r, .copied r ∉ b) ∧ latest none a = some v ∧
        unseen false a = true) := by
  refine (reach_induct (P := fun s tr => Reach s tr ∧
    (∀ v, s.rx = .got v → ∃ a b, tr = a ++ .copied (some v) :: b ∧ .marked ∉ b ∧ (∀ r, .copied r ∉ b) ∧ latest none a = some v) ∧
    (∀ w v, s.rx = .c3 w v → ∃ a b, tr = a ++ .copied (some v) :: b ∧ .marked ∉ b ∧ (∀ r, .copied r ∉ b) ∧ latest none a = some v ∧
        unseen false a = true))
    ⟨⟨[], rfl⟩, by simp [init], by simp [init]⟩ ?_ h).2
  rintro s tr a s' e ⟨hR, h1, h2⟩ hs
  have hext : ∀ e', (.marked ∉ e') → (∀ r, .copied r ∉ e') →
      (∀ v, s.rx = .got v → ∃ a b, tr ++ e' = a ++ .copied (some v) :: b ∧ .marked ∉ b ∧ (∀ r, .copied r ∉ b) ∧ latest none a = some v) ∧
      (∀ w v, s.rx = .c3 w v → ∃ a b, tr ++ e' = a ++ .copied (some v) :: b ∧ .marked ∉ b ∧ (∀ r, .copied r ∉ b) ∧
        latest none a = some v ∧ unseen false a = true) := by
    intro e' hm hc
    refine ⟨?_, ?_⟩
    · intro v hv
      obtain ⟨a, b, h3, h4, h5, h6⟩ := h1 v hv
      refine ⟨a, b ++ e', by rw [h3]; simp, by simp [h4, hm], fun r => by simp [h5, hc], h6⟩
    · intro w v hv
      obtain ⟨a, b, h3, h4, h5, h6, h7⟩ := h2 w v hv
      refine ⟨a, b ++ e', by rw [h3]; simp, by simp [h4, hm], fun r => by simp [h5, hc], h6, h7⟩
  refine ⟨hR.step hs, ?_⟩
  have hL := store_latest hR
  have hI := inv1 hR
  cases tr_of_step hs with
  | write i v => exact hext _ (by simp) (by simp)
  | wakeSome i w => exact hext _ (by simp) (by simp)
  | wakeNone i => exact hext _ (by simp) (by simp)
  | tryNone hx hv => simp [hx]
  | trySome v hx hv =>
    refine ⟨?_, by simp⟩
    intro v' hv'
    cases hv'
    exact ⟨tr, [], by simp, by simp, by simp, by rw [← hL, hv]⟩
  | copySome w v hx hv =>
    refine ⟨by simp, ?_⟩
    intro w' v' hv'
    cases hv'
    exact ⟨tr, [], by simp, by simp, by simp, by rw [← hL, hv],
      hI.1 (by simp [hx]) (by simp [hx]) (hI.2 ⟨w, hx⟩) (by simp [hv])⟩
  | _ => simp

/-- In a clean history the flag is not set while there is an unseen value, and in the window the value is not unseen. -/
theorem inv2 {s : St T} {tr : List (Ev T)} (h : Reach s tr) : Clean tr →
    (unseen false tr = true → s.seen = false) ∧ ((∃ v, s.rx = .got v) ∨ (∃ w v, s.rx = .c3 w v) → unseen false tr = false) := by
  refine (reach_induct (P := fun s tr => Reach s tr ∧ (Clean tr →
    (unseen false tr = true → s.seen = false) ∧ ((∃ v, s.rx = .got v) ∨ (∃ w v, s.rx = .c3 w v) → unseen false tr = false)))
    ⟨⟨[], rfl⟩, by simp [init, unseen]⟩ ?_ h).2
  rintro s tr a s' e ⟨hR, hP⟩ hs
  refine ⟨hR.step hs, fun hc => ?_⟩
  have hW := window hR
  replace hP := hP hc.prefix
  rw [unseen_append]
  cases tr_of_step hs with
  | write i v hp =>
    refine ⟨by simp, ?_⟩
    have hno : ∀ v', (∃ a b, tr = a ++ .copied (some v') :: b ∧ .marked ∉ b) → False := by
      rintro v' ⟨a, b, h1, h2⟩
      exact h2 (hc a b [] v' v (by rw [h1]; simp))
    rintro (⟨v', hx⟩ | ⟨w, v', hx⟩)
    · obtain ⟨a, b, h1, h2, -⟩ := hW.1 v' hx; exact (hno v' ⟨a, b, h1, h2⟩).elim
    · obtain ⟨a, b, h1, h2, -⟩ := hW.2 w v' hx; exact (hno v' ⟨a, b, h1, h2⟩).elim
  | _ => simp_all [unseen]

theorem invW {s : St T} {tr : List (Ev T)} (h : Reach s tr) :
    (∀ w, s.rwk = some w ↔ regState none tr = some (w, false)) ∧
    (∀ w, s.rx = .pend w ∨ s.rx = .c1 w ∨ s.rx = .c2 w → (regState none tr = some (w, true) ∨ regState none tr = some (w, false))) ∧
    (∀ w, s.rx = .pend w → s.seen = false → s.store ≠ none → regState none tr = some (w, true) ∨ ∃ i, s.wr i = true) := by
  refine reach_induct (P := fun s tr => (∀ w, s.rwk = some w ↔ regState none tr = some (w, false)) ∧
    (∀ w, s.rx = .pend w ∨ s.rx = .c1 w ∨ s.rx = .c2 w → (regState none tr = some (w, true) ∨ regState none tr = some (w, false))) ∧
    (∀ w, s.rx = .pend w → s.seen = false → s.store ≠ none → regState none tr = some (w, true) ∨ ∃ i, s.wr i = true))
    (by simp [init, regState]) ?_ h
  rintro s tr a s' e ⟨h1, h2, h3⟩ hs
  have hr := regState_append tr e none
  cases tr_of_step hs with
  | wakeSome i w hp hw =>
    have h4 := (h1 w).1 hw
    simp only [hr, h4, regState] at *
    simp
    grind
  | regOther w w2 hx hw hne =>
    have h4 := (h1 w2).1 hw
    simp only [hr, h4, regState] at *
    simp
  | _ => simp only [hr]; rcases hR : regState none tr with _ | ⟨w', b⟩ <;> simp_all [regState] <;> grind

/-! ## C22 -/

/-- **C22** What the reader copies is always the latest written value (`none` exactly if nothing was written). -/
theorem C22_copy_latest {s s' : St T} {tr e : List (Ev T)} {act : Act T} {r : Option T} (h : Reach s tr)
    (hs : step s act = some (s', e)) (hm : Ev.copied r ∈ e) : r = latest none tr := by
  rw [← store_latest h]
  cases tr_of_step hs <;> simp_all

/-- **C22** `try_get` returns the value that was the latest one at some instant during the call (the copy; only the mark follows it). -/
theorem C22_try_get {s s' : St T} {tr e : List (Ev T)} {act : Act T} {v : T} (h : Reach s tr)
    (hs : step s act = some (s', e)) (hm : Ev.gotRet (some v) ∈ e) :
    ∃ a b, tr = a ++ .copied (some v) :: b ∧ (∀ r, .copied r ∉ b) ∧ latest none a = some v := by
  cases tr_of_step hs <;> simp at hm
  rename_i v' hx
  subst hm
  obtain ⟨a, b, h1, -, h2, h3⟩ := (window h).1 _ hx
  exact ⟨a, b, h1, h2, h3⟩

/-- **C22** `try_get` returns `None` only if nothing was written so far. -/
theorem C22_try_get_none {s s' : St T} {tr e : List (Ev T)} {act : Act T} (h : Reach s tr)
    (hs : step s act = some (s', e)) (hm : Ev.gotRet none ∈ e) : ∀ v, .stored v ∉ tr := by
  have hn : latest none tr = none := by
    rw [← store_latest h]
    cases tr_of_step hs <;> simp_all
  intro v hv
  obtain ⟨a, b, rfl⟩ := List.append_of_mem hv
  rw [latest_append] at hn
  simp only [latest] at hn
  have : ∀ (b : List (Ev T)) (c : Option T), c.isSome → (latest c b).isSome := by
    intro b
    induction b with
    | nil => intro c hc; exact hc
    | cons x b ih => intro c hc; cases x <;> simp only [latest] <;> first | exact ih _ hc | exact ih _ rfl
  have := this b (some v) rfl
  rw [hn] at this; cases this

/-- **C22** `changed()` returns only a value that the reader had not been handed before: it was the latest one when it was copied, and a
write happened since the reader's previous copy. -/
theorem C22_changed_unseen {s s' : St T} {tr e : List (Ev T)} {act : Act T} {v : T} (h : Reach s tr)
    (hs : step s act = some (s', e)) (hm : Ev.ret v ∈ e) :
    ∃ a b, tr = a ++ .copied (some v) :: b ∧ (∀ r, .copied r ∉ b) ∧ latest none a = some v ∧ unseen false a = true := by
  cases tr_of_step hs <;> simp at hm
  rename_i w v' hx
  subst hm
  obtain ⟨a, b, h1, -, h2, h3, h4⟩ := (window h).2 _ _ hx
  exact ⟨a, b, h1, h2, h3, h4⟩

/-- **C22**, part that holds: if no write fell between a copy and the mark that follows it, and there is an unseen value while `changed()` is
pending with waker `w`, then `w` has been woken since it was registered, or some writer is about to wake it.
Missing: writes between copy and mark, for which the claim is false (`C22_changed_violated`). -/
theorem C22_changed_partial {s : St T} {tr : List (Ev T)} {w : Nat} (h : Reach s tr) (hc : Clean tr) (hu : unseen false tr = true)
    (hp : s.rx = .pend w) :
    regState none tr = some (w, true) ∨ ∃ i s' e, step s (.wake i) = some (s', e) ∧ Ev.woke w ∈ e := by
  obtain ⟨h1, h2, h3⟩ := invW h
  have hseen := (inv2 h hc).1 hu
  have hst : s.store ≠ none := by rw [store_latest h]; exact latest_of_unseen hu
  rcases h2 w (.inl hp) with h4 | h4
  · exact .inl h4
  · rcases h3 w hp hseen hst with h5 | ⟨i, hi⟩
    · exact .inl h5
    · have := (h1 w).2 h4
      exact .inr ⟨i, { s with rwk := none, wr := set s.wr i false }, [.woke w], by simp [step, hi, this], by simp⟩

/-- **C22**, part that holds: under the same condition, a `changed()` that is called (or polled again) resolves at that poll with the latest value. -/
theorem C22_changed_poll_partial {s : St T} {tr : List (Ev T)} {w' : Nat} (h : Reach s tr) (hc : Clean tr) (hu : unseen false tr = true)
    (hp : s.rx = .ch0 ∨ ∃ w, s.rx = .pend w) :
    ∃ v s' e, latest none tr = some v ∧ exec s [.poll w', .go, .go, .go, .go] = some (s', e) ∧ Ev.ret v ∈ e := by
  have hseen := (inv2 h hc).1 hu
  have hst : s.store ≠ none := by rw [store_latest h]; exact latest_of_unseen hu
  obtain ⟨v, hv⟩ := Option.ne_none_iff_exists'.1 hst
  refine ⟨v, ?_⟩
  rw [← store_latest h, hv]
  cases hr : s.rwk with
  | none =>
    rcases hp with hp | ⟨w, hp⟩ <;> exact ⟨_, _, rfl, by simp [exec, step, hp, hr, hv, hseen]; exact ⟨rfl, rfl⟩, by simp⟩
  | some w2 =>
    by_cases hw : w2 = w'
    · rcases hp with hp | ⟨w, hp⟩ <;> exact ⟨_, _, rfl, by simp [exec, step, hp, hr, hv, hw, hseen]; exact ⟨rfl, rfl⟩, by simp⟩
    · rcases hp with hp | ⟨w, hp⟩ <;> exact ⟨_, _, rfl, by simp [exec, step, hp, hr, hv, hw, hseen]; exact ⟨rfl, rfl⟩, by simp⟩

/-- Not a write and not a `try_get`. -/
def Act.isQuiet : Act T → Bool
  | .write _ _ | .tryGet => false
  | _ => true

/-- Once the flag is set outside the window, `changed()` never resolves until the next write. -/
theorem stuck : ∀ (as : List (Act T)) (s : St T), s.seen = true → (∀ w, s.rx ≠ .c2 w) → (∀ w v, s.rx ≠ .c3 w v) →
    (∀ a ∈ as, a.isQuiet = true) → ∀ s' e, exec s as = some (s', e) → ∀ v, Ev.ret v ∉ e
  | [], _, _, _, _, _, _, _, he, _ => by cases he; simp
  | a :: as, s, h1, h2, h3, hq, s', e, he, v => by
    simp only [exec] at he
    split at he
    · cases he
    · rename_i s1 e1 hs
      split at he
      · cases he
      · rename_i s2 es hs2
        cases he
        have hqa := hq a List.mem_cons_self
        have key : s1.seen = true ∧ (∀ w, s1.rx ≠ .c2 w) ∧ (∀ w v, s1.rx ≠ .c3 w v) ∧ Ev.ret v ∉ e1 := by
          cases tr_of_step hs <;> simp_all [Act.isQuiet]
        have := stuck as s1 key.1 key.2.1 key.2.2.1 (fun b hb => hq b (List.mem_cons_of_mem _ hb)) _ es hs2 v
        simp [this, key.2.2.2]

/-- **C22 is false in general.** A write that falls between the copy and the mark of a `try_get` (by a preempting, higher-priority
writer) is marked as seen although the reader never got its value: the writer has finished, the value `2` is stored and unseen,
and whatever `changed()` calls and polls follow, none resolves as long as nothing else is written. -/
theorem C22_changed_violated : ∃ (s : St Nat) (tr : List (Ev Nat)), Reach s tr ∧ s.rx = .idle ∧ latest none tr = some 2 ∧
    unseen false tr = true ∧ (∀ i, s.wr i = false) ∧ Ev.gotRet (some 2) ∉ tr ∧
    ∀ as, (∀ a ∈ as, a.isQuiet = true) → ∀ s' e, exec s as = some (s', e) → ∀ v, Ev.ret v ∉ e := by
  have hex : ∃ s tr, exec (init : St Nat) [.write 0 1, .wake 0, .tryGet, .write 0 2, .wake 0, .go] = some (s, tr) ∧ s.rx = .idle ∧
      latest none tr = some 2 ∧ unseen false tr = true ∧ (∀ i, s.wr i = false) ∧ Ev.gotRet (some 2) ∉ tr ∧ s.seen = true := by
    refine ⟨_, _, rfl, rfl, rfl, rfl, ?_, by decide, rfl⟩
    intro i; simp [init, set_apply]
  obtain ⟨s, tr, h0, h1, h2, h3, h4, h5, h6⟩ := hex
  exact ⟨s, tr, ⟨_, h0⟩, h1, h2, h3, h4, h5, fun as => stuck as s h6 (by simp [h1]) (by simp [h1])⟩

/-- Non-vacuity: a clean history in which `changed()` waits, is woken by a write and returns the value; then an older one is not returned again. -/
example : (exec (init : St Nat) [.changed, .poll 7, .go, .go, .go, .write 0 1, .wake 0, .poll 7, .go, .go, .go, .go, .changed, .poll 7, .go, .go]).map
    (fun r => (r.2, r.1.rx))
    = some ([.reg 7, .copied none, .stored 1, .woke 7, .reg 7, .copied (some 1), .marked, .ret 1, .reg 7], .pend 7) := by decide

/-- Non-vacuity of the hypotheses of the partial theorems: a clean history with an unseen value and a pending `changed()`. -/
example : ∃ (s : St Nat) (tr : List (Ev Nat)), Reach s tr ∧ Clean tr ∧ unseen false tr = true ∧ s.rx = .pend 7 := by
  have hex : ∃ s tr, exec (init : St Nat) [.changed, .poll 7, .go, .go, .go, .write 0 1] = some (s, tr) ∧
      tr = [.reg 7, .copied none, .stored 1] ∧ s.rx = .pend 7 := by refine ⟨_, _, rfl, rfl, rfl⟩
  obtain ⟨s, tr, h0, rfl, h2⟩ := hex
  refine ⟨s, _, ⟨_, h0⟩, ?_, rfl, h2⟩
  intro a b c v v' h
  have : Ev.copied (some v) ∈ [Ev.reg 7, .copied none, .stored 1] := by rw [h]; simp
  simp at this

end Verif.Watch
