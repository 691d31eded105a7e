import Verif.Signal.Model

/-! # C19, C20, C21, C23 -/

namespace Verif.Signal

variable {T : Type}

/-! ## Vocabulary -/

/-- The event neither writes, clears, nor reads. -/
def Ev.quiet : Ev T → Bool
  | .stored _ | .cleared | .read _ | .evicted => false
  | _ => true

/-- From the history: the written value that has not been overwritten, cleared or read. -/
def current : Option T → List (Ev T) → Option T
  | c, [] => c
  | _, .stored v :: tr => current (some v) tr
  | _, .cleared :: tr => current none tr
  | _, .read _ :: tr => current none tr
  | _, .evicted :: tr => current none tr
  | c, _ :: tr => current c tr

/-- From the history: the last registered waker and whether it has been woken since. -/
def regState : Option (Nat × Bool) → List (Ev T) → Option (Nat × Bool)
  | r, [] => r
  | _, .reg w :: tr => regState (some (w, false)) tr
  | some (w, b), .woke w' :: tr => regState (some (w, b || w == w')) tr
  | r, _ :: tr => regState r tr

/-- From the history: values written since the last call of `wait_fresh`. -/
def sinceFresh : List T → List (Ev T) → List T
  | l, [] => l
  | _, .freshCall :: tr => sinceFresh [] tr
  | l, .stored v :: tr => sinceFresh (l ++ [v]) tr
  | l, _ :: tr => sinceFresh l tr

/-! ## Lemmas -/

theorem current_append (a b : List (Ev T)) : ∀ c, current c (a ++ b) = current (current c a) b := by
  induction a with
  | nil => intro c; rfl
  | cons x a ih => intro c; cases x <;> simp [current, ih]

theorem regState_append (a b : List (Ev T)) : ∀ c, regState c (a ++ b) = regState (regState c a) b := by
  induction a with
  | nil => intro c; rfl
  | cons x a ih => intro c; cases x <;> simp [regState, ih]; rcases c with _ | ⟨w, b⟩ <;> simp [regState, ih]

theorem sinceFresh_append (a b : List (Ev T)) : ∀ c, sinceFresh c (a ++ b) = sinceFresh (sinceFresh c a) b := by
  induction a with
  | nil => intro c; rfl
  | cons x a ih => intro c; cases x <;> simp [sinceFresh, ih]

@[simp, grind =] theorem set_apply (f : Nat → Bool) (i : Nat) (x : Bool) (j : Nat) : set f i x j = if j = i then x else f j := rfl

theorem exec_induct {P : St T → List (Ev T) → Prop}
    (hstep : ∀ s tr a s' e, P s tr → step s a = some (s', e) → P s' (tr ++ e)) :
    ∀ (as : List (Act T)) (s : St T) (tr : List (Ev T)) (s' : St T) (es : List (Ev T)), P s tr →
      exec s as = some (s', es) → P s' (tr ++ es)
  | [], s, tr, s', es, h, he => by cases he; simpa using h
  | a :: as, s, tr, s', es, h, he => by
    simp only [exec] at he
    split at he
    · cases he
    · rename_i s1 e hs
      split at he
      · cases he
      · rename_i s2 es' hs2
        cases he
        have := exec_induct hstep as s1 (tr ++ e) _ es' (hstep _ _ _ _ _ h hs) hs2
        simpa using this

theorem reach_induct {P : St T → List (Ev T) → Prop} (h0 : P init [])
    (hstep : ∀ s tr a s' e, P s tr → step s a = some (s', e) → P s' (tr ++ e)) {s : St T} {tr : List (Ev T)}
    (h : Reach s tr) : P s tr := by
  obtain ⟨as, he⟩ := h
  simpa using exec_induct hstep as init [] s tr h0 he

/-! ## Case analysis of the step function (proof device) -/

inductive Tr (s : St T) : Act T → St T → List (Ev T) → Prop where
  | write (i v) (hp : s.wr i = false) : Tr s (.write i (some v)) { s with store := some v, wr := set s.wr i true } [.stored v]
  | clear (i) (hp : s.wr i = false) : Tr s (.write i none) { s with store := none, wr := set s.wr i true } [.cleared]
  | wakeSome (i w) (hp : s.wr i = true) (hw : s.rwk = some w) : Tr s (.wake i) { s with rwk := none, wr := set s.wr i false } [.woke w]
  | wakeNone (i) (hp : s.wr i = true) (hw : s.rwk = none) : Tr s (.wake i) { s with wr := set s.wr i false } []
  | tryRead (hx : s.rx = .idle) : Tr s .tryRead { s with store := none } [.read s.store]
  | wait (hx : s.rx = .idle) : Tr s .wait { s with rx := .wait0 } []
  | waitFresh (hx : s.rx = .idle) : Tr s .waitFresh { s with rx := .fresh0 } [.freshCall]
  | pollF (w) (hx : s.rx = .fresh0) : Tr s (.poll w) { s with rx := .fresh1 w } []
  | pollW (w) (hx : s.rx = .wait0) : Tr s (.poll w) { s with rx := .poll0 false w } []
  | pollP (w f w0) (hx : s.rx = .pend f w0) : Tr s (.poll w) { s with rx := .poll0 f w } []
  | evict (w) (hx : s.rx = .fresh1 w) : Tr s .go { s with store := none, rx := .poll0 true w } [.evicted]
  | regSame (f w) (hx : s.rx = .poll0 f w) (hw : s.rwk = some w) : Tr s .go { s with rx := .poll1 f w } [.reg w]
  | regOther (f w w2) (hx : s.rx = .poll0 f w) (hw : s.rwk = some w2) (hne : w2 ≠ w) :
    Tr s .go { s with rwk := some w, rx := .poll1 f w } [.woke w2, .reg w]
  | regNew (f w) (hx : s.rx = .poll0 f w) (hw : s.rwk = none) : Tr s .go { s with rwk := some w, rx := .poll1 f w } [.reg w]
  | takeNone (f w) (hx : s.rx = .poll1 f w) (hv : s.store = none) : Tr s .go { s with store := none, rx := .pend f w } [.read none]
  | takeSome (f w v) (hx : s.rx = .poll1 f w) (hv : s.store = some v) :
    Tr s .go { s with store := none, rx := .idle } [.read (some v), .ret f v]
  | cancel (hx : s.rx = .fresh0 ∨ s.rx = .wait0 ∨ ∃ f w, s.rx = .pend f w) : Tr s .cancel { s with rx := .idle } []

theorem tr_of_step {s s' : St T} {a : Act T} {e : List (Ev T)} (hs : step s a = some (s', e)) : Tr s a s' e := by
  cases a with
  | write i x =>
    simp only [step] at hs; split at hs
    · cases hs
    · rename_i hp
      cases x with
      | none => cases hs; exact .clear i (by simpa using hp)
      | some v => cases hs; exact .write i v (by simpa using hp)
  | wake i =>
    simp only [step] at hs; split at hs
    · rename_i hp
      cases hw : s.rwk with
      | none => simp only [hw] at hs; cases hs; have := Tr.wakeNone i hp hw; rwa [hw] at this
      | some w => simp only [hw] at hs; cases hs; exact .wakeSome i w hp hw
    · cases hs
  | tryRead => simp only [step] at hs; cases hx : s.rx <;> simp only [hx] at hs <;> cases hs; have := Tr.tryRead hx; rwa [hx] at this
  | wait => simp only [step] at hs; cases hx : s.rx <;> simp only [hx] at hs <;> cases hs; exact .wait hx
  | waitFresh => simp only [step] at hs; cases hx : s.rx <;> simp only [hx] at hs <;> cases hs; exact .waitFresh hx
  | poll w =>
    simp only [step] at hs; cases hx : s.rx <;> simp only [hx] at hs <;> cases hs
    · exact .pollF w hx
    · exact .pollW w hx
    · exact .pollP w _ _ hx
  | cancel =>
    simp only [step] at hs; cases hx : s.rx <;> simp only [hx] at hs <;> cases hs <;> exact .cancel (by simp [hx])
  | go =>
    cases hx : s.rx with
    | fresh1 w => simp only [step, hx] at hs; cases hs; exact .evict w hx
    | poll0 f w =>
      cases hw : s.rwk with
      | none => simp only [step, hx, hw] at hs; cases hs; exact .regNew f w hx hw
      | some w2 =>
        simp only [step, hx, hw] at hs
        split at hs
        · rename_i h; subst h; cases hs; have := Tr.regSame f _ hx hw; rwa [hw] at this
        · rename_i h; cases hs; exact .regOther f w w2 hx hw h
    | poll1 f w =>
      cases hv : s.store with
      | none => simp only [step, hx, hv] at hs; cases hs; exact .takeNone f w hx hv
      | some v => simp only [step, hx, hv] at hs; cases hs; exact .takeSome f w v hx hv
    | _ => simp only [step, hx] at hs; cases hs

theorem store_current {s : St T} {tr : List (Ev T)} (h : Reach s tr) : s.store = current none tr := by
  refine reach_induct (P := fun s tr => s.store = current none tr) rfl ?_ h
  intro s tr a s' e hP hs
  rw [current_append, ← hP]
  clear hP
  cases tr_of_step hs <;> simp_all [current]

/-! ## C19 -/

theorem current_some {tr : List (Ev T)} {v : T} (h : current none tr = some v) :
    ∃ a b, tr = a ++ .stored v :: b ∧ ∀ x ∈ b, x.quiet = true := by
  have key : ∀ (tr : List (Ev T)) (c : Option T), current c tr = some v →
      (c = some v ∧ ∀ x ∈ tr, x.quiet = true) ∨ ∃ a b, tr = a ++ .stored v :: b ∧ ∀ x ∈ b, x.quiet = true := by
    intro tr
    induction tr with
    | nil => intro c h; exact .inl ⟨h, by simp⟩
    | cons x tr ih =>
      intro c h
      have wrap : (∃ a b, tr = a ++ .stored v :: b ∧ ∀ x ∈ b, x.quiet = true) →
          ∃ a b, x :: tr = a ++ .stored v :: b ∧ ∀ x ∈ b, x.quiet = true := by
        rintro ⟨a, b, h1, h2⟩; exact ⟨x :: a, b, by simp [h1], h2⟩
      cases x <;> simp only [current] at h <;> rcases ih _ h with ⟨h1, h2⟩ | h1 <;>
        first
          | exact .inr (wrap h1)
          | (cases h1; done)
          | (cases h1; exact .inr ⟨[], tr, rfl, h2⟩)
          | exact .inl ⟨h1, by intro y hy; rcases List.mem_cons.1 hy with rfl | hy; rfl; exact h2 y hy⟩
  rcases key tr none h with ⟨h, -⟩ | h
  · cases h
  · exact h

theorem current_none {tr : List (Ev T)} (h : current none tr = none) {a b : List (Ev T)} {v : T} (htr : tr = a ++ .stored v :: b) :
    ∃ x ∈ b, x = .cleared ∨ x = .evicted ∨ ∃ r, x = .read r := by
  subst htr
  rw [current_append] at h
  simp only [current] at h
  have key : ∀ (b : List (Ev T)) (c : Option T), c.isSome → current c b = none → ∃ x ∈ b, x = .cleared ∨ x = .evicted ∨ ∃ r, x = .read r := by
    intro b
    induction b with
    | nil => intro c hc h; simp only [current] at h; rw [h] at hc; cases hc
    | cons x b ih =>
      intro c hc h
      cases x <;> simp only [current] at h
      case stored w => obtain ⟨y, hy, h1⟩ := ih _ (by simp) h; exact ⟨y, List.mem_cons_of_mem _ hy, h1⟩
      case cleared => exact ⟨_, List.mem_cons_self, .inl rfl⟩
      case read r => exact ⟨_, List.mem_cons_self, .inr (.inr ⟨r, rfl⟩)⟩
      case evicted => exact ⟨_, List.mem_cons_self, .inr (.inl rfl)⟩
      all_goals obtain ⟨y, hy, h1⟩ := ih _ hc h; exact ⟨y, List.mem_cons_of_mem _ hy, h1⟩
  exact key b _ rfl h

theorem read_result {s s' : St T} {tr e : List (Ev T)} {a : Act T} {r : Option T} (h : Reach s tr)
    (hs : step s a = some (s', e)) (hm : Ev.read r ∈ e) : r = current none tr := by
  rw [← store_current h]
  cases tr_of_step hs <;> simp_all

/-- **C19** A read that returns a value `v` returns the most recent write: `v` was written, and since then nothing was written,
cleared, or read. In particular each written value is returned by at most one read. -/
theorem C19_read_latest {s s' : St T} {tr e : List (Ev T)} {act : Act T} {v : T} (h : Reach s tr)
    (hs : step s act = some (s', e)) (hm : Ev.read (some v) ∈ e) :
    ∃ a b, tr = a ++ .stored v :: b ∧ ∀ x ∈ b, x.quiet = true :=
  current_some (read_result h hs hm).symm

/-- **C19** A read finds no value only if there was no write, or every write has been followed by a clear or a read (or by the
eviction of `wait_fresh`). -/
theorem C19_read_none {s s' : St T} {tr e : List (Ev T)} {act : Act T} (h : Reach s tr)
    (hs : step s act = some (s', e)) (hm : Ev.read none ∈ e) {a b : List (Ev T)} {v : T} (htr : tr = a ++ .stored v :: b) :
    ∃ x ∈ b, x = .cleared ∨ x = .evicted ∨ ∃ r, x = .read r :=
  current_none (read_result h hs hm).symm htr

/-- **C19** `wait()`/`wait_fresh()` complete exactly with what they read, and stay pending only if there is no value. -/
theorem C19_wait_returns_read {s s' : St T} {e : List (Ev T)} {act : Act T} {f : Bool} {v : T}
    (hs : step s act = some (s', e)) (hm : Ev.ret f v ∈ e) : Ev.read (some v) ∈ e := by
  cases tr_of_step hs <;> simp_all

/-- **C19** A value is never delivered twice: between two reads that return values there is a write of the second one. -/
theorem C19_at_most_once {s s' : St T} {tr e a b : List (Ev T)} {act : Act T} {v v' : T} (h : Reach s tr)
    (hs : step s act = some (s', e)) (hm : Ev.read (some v') ∈ e) (htr : tr = a ++ .read (some v) :: b) : Ev.stored v' ∈ b := by
  obtain ⟨a', b', h1, h2⟩ := C19_read_latest h hs hm
  rw [h1] at htr
  have hlen := congrArg List.length htr
  -- the read is not among the quiet suffix, so the write is later
  rcases List.append_eq_append_iff.1 htr with ⟨l, h3, h4⟩ | ⟨l, h3, h4⟩
  · cases l with
    | nil => simp at h4
    | cons x l =>
      simp at h4
      have := h2 (.read (some v)) (by rw [h4.2]; simp)
      simp [Ev.quiet] at this
  · cases l with
    | nil => simp at h4
    | cons x l => simp at h4; rw [h4.2]; simp

/-- Non-vacuity: two writes, the read gives the second; the next read gives nothing. -/
example : (exec (init : St Nat) [.write 0 (some 1), .write 1 (some 2), .wake 0, .tryRead, .tryRead, .write 0 (some 3), .wait, .poll 9, .go, .go]).map (·.2)
    = some [.stored 1, .stored 2, .read (some 2), .read none, .stored 3, .reg 9, .read (some 3), .ret false 3] := by decide

/-! ## C20 -/

structure InvW (s : St T) (tr : List (Ev T)) : Prop where
  /-- the cell holds exactly the registered and not yet woken waker -/
  cell : ∀ w, s.rwk = some w ↔ regState none tr = some (w, false)
  pend : ∀ f w, s.rx = .pend f w ∨ s.rx = .poll1 f w → (regState none tr = some (w, true) ∨ regState none tr = some (w, false))
  value : ∀ f w, s.rx = .pend f w → s.store ≠ none → regState none tr = some (w, true) ∨ ∃ i, s.wr i = true

theorem invW_iff (s : St T) (tr : List (Ev T)) : InvW s tr ↔
    (∀ w, s.rwk = some w ↔ regState none tr = some (w, false)) ∧
    (∀ f w, s.rx = .pend f w ∨ s.rx = .poll1 f w → (regState none tr = some (w, true) ∨ regState none tr = some (w, false))) ∧
    (∀ f w, s.rx = .pend f w → s.store ≠ none → regState none tr = some (w, true) ∨ ∃ i, s.wr i = true) :=
  ⟨fun ⟨a, b, c⟩ => ⟨a, b, c⟩, fun ⟨a, b, c⟩ => ⟨a, b, c⟩⟩

theorem invW {s : St T} {tr : List (Ev T)} (h : Reach s tr) : InvW s tr := by
  refine reach_induct (P := InvW) ⟨by simp [init, regState], by simp [init], by simp [init]⟩ ?_ h
  rintro s tr a s' e ⟨h1, h2, h3⟩ hs
  rw [invW_iff]
  have hr := regState_append tr e none
  cases tr_of_step hs with
  | wakeSome i w hp hw =>
    have h4 := (h1 w).1 hw
    simp only [hr, h4, regState] at *
    simp
    grind
  | regOther f w w2 hx hw hne =>
    have h4 := (h1 w2).1 hw
    simp only [hr, h4, regState] at *
    simp
  | _ => simp only [hr]; rcases hR : regState none tr with _ | ⟨w', b⟩ <;> simp_all [regState] <;> grind

/-- **C20** If the signal holds a value while the reader's `wait()` (or `wait_fresh()`) future is pending with waker `w`, then `w` has been
woken since it was registered, or some writer is about to wake it: its next step does. -/
theorem C20_no_missed_write {s : St T} {tr : List (Ev T)} {f : Bool} {w : Nat} (h : Reach s tr) (hp : s.rx = .pend f w)
    (hv : s.store ≠ none) :
    regState none tr = some (w, true) ∨ ∃ i s' e, step s (.wake i) = some (s', e) ∧ Ev.woke w ∈ e := by
  have hI := invW h
  rcases hI.pend f w (.inl hp) with h1 | h1
  · exact .inl h1
  · rcases hI.value f w hp hv with h2 | ⟨i, hi⟩
    · exact .inl h2
    · have := (hI.cell w).2 h1
      exact .inr ⟨i, { s with rwk := none, wr := set s.wr i false }, [.woke w], by simp [step, hi, this], by simp⟩

/-- **C20** and when the woken future is polled and nothing was written or cleared in between, it returns the value. -/
theorem C20_poll_returns_value {s : St T} {f : Bool} {w w' : Nat} {v : T} (hp : s.rx = .pend f w) (hv : s.store = some v) :
    ∃ s' e, exec s [.poll w', .go, .go] = some (s', e) ∧ Ev.ret f v ∈ e := by
  cases hr : s.rwk with
  | none => exact ⟨_, _, by simp [exec, step, hp, hr, hv]; exact ⟨rfl, rfl⟩, by simp⟩
  | some w2 =>
    by_cases hw : w2 = w'
    · exact ⟨_, _, by simp [exec, step, hp, hr, hv, hw]; exact ⟨rfl, rfl⟩, by simp⟩
    · exact ⟨_, _, by simp [exec, step, hp, hr, hv, hw]; exact ⟨rfl, rfl⟩, by simp⟩

/-- **C20** What an uninterrupted poll of `wait()` (first or later) does: it returns the value if there is one, and it is gone then; otherwise it is pending and the waker of this poll is the registered one. -/
theorem C20_poll_result {s : St T} {f : Bool} (w' : Nat) (hp : (∃ w, s.rx = .pend f w) ∨ (s.rx = .wait0 ∧ f = false)) :
    ∃ s' e, exec s [.poll w', .go, .go] = some (s', e) ∧ s'.store = none ∧ s'.rwk = some w' ∧
      match s.store with
      | some v => Ev.ret f v ∈ e ∧ s'.rx = .idle
      | none => s'.rx = .pend f w' := by
  have h1 : step s (.poll w') = some ({ s with rx := .poll0 f w' }, []) := by
    rcases hp with ⟨w, hp⟩ | ⟨hp, rfl⟩ <;> simp [step, hp]
  obtain ⟨e2, h2⟩ : ∃ e, step { s with rx := .poll0 f w' } .go = some ({ s with rwk := some w', rx := .poll1 f w' }, e) := by
    cases hr : s.rwk with
    | none => exact ⟨_, by simp only [step, hr]; rfl⟩
    | some w2 => by_cases hw : w2 = w' <;> exact ⟨_, by simp only [step, hr, hw]; rfl⟩
  cases hv : s.store with
  | none =>
    refine ⟨{ s with rwk := some w', rx := .pend f w' }, e2 ++ [.read none], ?_, hv, rfl, rfl⟩
    simp only [exec, h1, h2]; simp [step, hv]
  | some v =>
    refine ⟨{ s with store := none, rwk := some w', rx := .idle }, e2 ++ [.read (some v), .ret f v], ?_, rfl, rfl, by simp, rfl⟩
    simp only [exec, h1, h2]; simp [step, hv]

/-- Non-vacuity: the write lands between the reader's `register` and `take` of a second poll, and a pending reader with a value present exists. -/
example : (exec (init : St Nat) [.wait, .poll 7, .go, .go, .write 0 (some 5)]).map (fun r => (r.1.rx, r.1.store, r.1.wr 0))
    = some (.pend false 7, some 5, true) := by decide

/-! ## C21 -/

theorem invF {s : St T} {tr : List (Ev T)} (h : Reach s tr) :
    ∀ w, (s.rx = .poll0 true w ∨ s.rx = .poll1 true w ∨ s.rx = .pend true w) → ∀ v, s.store = some v → v ∈ sinceFresh [] tr := by
  refine reach_induct (P := fun s tr => ∀ w, (s.rx = .poll0 true w ∨ s.rx = .poll1 true w ∨ s.rx = .pend true w) →
    ∀ v, s.store = some v → v ∈ sinceFresh [] tr) (by simp [init]) ?_ h
  intro s tr a s' e hP hs
  rw [sinceFresh_append]
  cases tr_of_step hs <;> simp_all [sinceFresh] <;> grind

theorem wait_fresh_written {s s' : St T} {tr e : List (Ev T)} {act : Act T} {v : T} (h : Reach s tr)
    (hs : step s act = some (s', e)) (hm : Ev.ret true v ∈ e) :
    ∃ a b, tr = a ++ .freshCall :: b ∧ .freshCall ∉ b ∧ .stored v ∈ b := by
  have hin : v ∈ sinceFresh [] tr ∧ Ev.freshCall ∈ tr := by
    have hF : ∀ w, (s.rx = .fresh0 ∨ s.rx = .fresh1 w ∨ s.rx = .poll0 true w ∨ s.rx = .poll1 true w ∨ s.rx = .pend true w) →
        Ev.freshCall ∈ tr := by
      refine reach_induct (P := fun s tr => ∀ w, (s.rx = .fresh0 ∨ s.rx = .fresh1 w ∨ s.rx = .poll0 true w ∨ s.rx = .poll1 true w ∨
        s.rx = .pend true w) → Ev.freshCall ∈ tr) (by simp [init]) ?_ h
      intro s tr a s' e hP hs
      cases tr_of_step hs <;> simp_all <;> grind
    have hI := invF h
    cases tr_of_step hs <;> simp at hm
    rename_i f w v' hx hst
    obtain ⟨rfl, rfl⟩ := hm
    exact ⟨hI w (by simp [hx]) _ hst, hF w (by simp [hx])⟩
  obtain ⟨hv, hc⟩ := hin
  -- split at the last call
  have split : ∀ tr : List (Ev T), .freshCall ∈ tr → ∃ a b, tr = a ++ .freshCall :: b ∧ .freshCall ∉ b := by
    intro tr
    induction tr with
    | nil => intro h; cases h
    | cons x tr ih =>
      intro hm
      by_cases hx : Ev.freshCall ∈ tr
      · obtain ⟨a, b, h1, h2⟩ := ih hx; exact ⟨x :: a, b, by simp [h1], h2⟩
      · rcases List.mem_cons.1 hm with h1 | h1
        · exact ⟨[], tr, by simp [← h1], hx⟩
        · exact absurd h1 hx
  obtain ⟨a, b, h1, h2⟩ := split tr hc
  refine ⟨a, b, h1, h2, ?_⟩
  rw [h1, sinceFresh_append] at hv
  simp only [sinceFresh] at hv
  have : ∀ (b : List (Ev T)) (l : List T), Ev.freshCall ∉ b → v ∈ sinceFresh l b → v ∈ l ∨ .stored v ∈ b := by
    intro b
    induction b with
    | nil => intro l _ h; exact .inl h
    | cons x b ih =>
      intro l hn h
      have hn' : Ev.freshCall ∉ b := fun h => hn (List.mem_cons_of_mem _ h)
      cases x <;> simp only [sinceFresh] at h
      case freshCall => exact absurd List.mem_cons_self hn
      case stored v' =>
        rcases ih _ hn' h with h | h
        · rcases List.mem_append.1 h with h | h
          · exact .inl h
          · simp at h; subst h; exact .inr List.mem_cons_self
        · exact .inr (List.mem_cons_of_mem _ h)
      all_goals exact (ih _ hn' h).imp id (List.mem_cons_of_mem _)
  simpa using this b [] h2 hv

/-- **C21** `wait_fresh()` returns the latest value, and that was written after it was called: the history has the form: the last call of `wait_fresh`, then a write of `v`, and since then no write, clear or read. -/
theorem C21_wait_fresh {s s' : St T} {tr e : List (Ev T)} {act : Act T} {v : T} (h : Reach s tr)
    (hs : step s act = some (s', e)) (hm : Ev.ret true v ∈ e) :
    ∃ a b c, tr = a ++ .freshCall :: (b ++ .stored v :: c) ∧ .freshCall ∉ b ++ c ∧ ∀ x ∈ c, x.quiet = true := by
  obtain ⟨a, b, h1, h2, h3⟩ := wait_fresh_written h hs hm
  obtain ⟨a', c, h4, h5⟩ := C19_read_latest h hs (C19_wait_returns_read hs hm)
  obtain ⟨x, y, rfl⟩ := List.append_of_mem h3
  rw [h1] at h4
  have h6 : (a ++ .freshCall :: x) ++ .stored v :: y = a' ++ .stored v :: c := by simpa using h4
  rcases List.append_eq_append_iff.1 h6 with ⟨l, h7, h8⟩ | ⟨l, h7, h8⟩
  · cases l with
    | nil => simp at h7 h8; subst h8; exact ⟨a, x, y, h1, by simpa using h2, h5⟩
    | cons z l =>
      simp at h8
      obtain ⟨rfl, rfl⟩ := h8
      refine ⟨a, x ++ .stored v :: l, c, by simp [h1], by simpa using h2, h5⟩
  · cases l with
    | nil => simp at h7 h8; subst h8; exact ⟨a, x, c, h1, by simpa using h2, h5⟩
    | cons z l =>
      simp at h8
      have := h5 (.stored v) (by rw [h8.2]; simp)
      simp [Ev.quiet] at this

/-- Non-vacuity: an old value is evicted; the value written later is returned. -/
example : (exec (init : St Nat) [.write 0 (some 1), .wake 0, .waitFresh, .poll 7, .go, .go, .go, .write 0 (some 2), .wake 0, .poll 7, .go, .go]).map (·.2)
    = some [.stored 1, .freshCall, .evicted, .reg 7, .read none, .stored 2, .woke 7, .reg 7, .read (some 2), .ret true 2] := by
  decide

/-! ## C23 -/

/-- **C23** At every time at most one reader of a signal (or watch) exists, and `try_take_reader` succeeds exactly if none does. -/
theorem C23_single_reader {h : Handles} (hr : HReach h) :
    h.live.length ≤ 1 ∧ ∀ i, ((tryTake h i).2 = true ↔ h.live = []) := by
  have key : h.flag = !h.live.isEmpty ∧ h.live.length ≤ 1 := by
    induction hr with
    | init => simp
    | @take h i _ ih =>
      simp only [tryTake]; split
      · rename_i hf; exact ⟨by rw [← ih.1, hf], ih.2⟩
      · rename_i hf
        have : h.live = [] := by
          cases hl : h.live with
          | nil => rfl
          | cons a l => rw [hl] at ih; simp at ih; exact absurd ih.1 hf
        simp [this]
    | @drop h i hi _ ih =>
      match hl : h.live with
      | [] => rw [hl] at hi; cases hi
      | [a] => rw [hl] at hi; simp at hi; subst hi; simp [dropReader, hl]
      | a :: b :: l => rw [hl] at ih; simp at ih
  refine ⟨key.2, fun i => ?_⟩
  simp only [tryTake, key.1]
  cases h.live <;> simp

/-- **C23** After the reader is dropped, a new one can be taken. -/
theorem C23_retake (h : Handles) (i j : Nat) :
    (tryTake (dropReader h i) j).2 = true := by simp [tryTake, dropReader]

/-- Non-vacuity: take, failed take, drop, take. -/
example : HReach ⟨true, [5]⟩ := by
  have := HReach.take 5 (.drop 1 (by decide) (.take 2 (.take 1 .init)))
  simpa [tryTake, dropReader] using this

end Verif.Signal
