import Verif.Await.Props
import Verif.Returned.Props

/-! # A task is woken when an operation returns, even if other operations are suspended (for C79, C95)

In the lemmas below `t` is a task; in its latest poll (`SinceLastPoll`) it registered its waker, and nobody has registered another one since; an operation has returned after that. -/

namespace Verif.Await

variable {S A E : Type}

/-- the state in which an action of the history was performed -/
theorem act_split {c : Cfg S A E} : ∀ (as : List (Act A)) {s s' : St S} {p q : List (Ev A E)} {x : A}, exec c s as = some (s', p ++ .act x :: q) →
    ∃ as1 s1 m' e q', exec c s as1 = some (s1, p) ∧ c.m s1.m x = some (m', e) ∧ q = e.map .m ++ q'
  | [], s, s', p, q, x, h => by
    simp only [exec, Option.some.injEq, Prod.mk.injEq] at h
    have := h.2
    cases p <;> cases this
  | a :: as, s, s', p, q, x, h => by
    obtain ⟨s1, e1, e2, h1, h2, he⟩ := exec_cons h
    -- the action is in the rest of the execution
    have later : ∀ {r : List (Ev A E)}, p = e1 ++ r → e2 = r ++ .act x :: q → ∃ as1 s1 m' e q', exec c s as1 = some (s1, p) ∧ c.m s1.m x = some (m', e) ∧ q = e.map .m ++ q' := by
      intro r hp hr
      rw [hr] at h2
      obtain ⟨as1, s2, m', e, q', k1, k2, k3⟩ := act_split as h2
      exact ⟨a :: as1, s2, m', e, q', by rw [hp]; simp [exec, h1, k1], k2, k3⟩
    have hm : ∀ {a' : A} {m : S} {e : List E}, c.m s.m a' = some (m, e) → e1 = .act a' :: e.map .m → ∃ as1 s1 m' e q', exec c s as1 = some (s1, p) ∧ c.m s1.m x = some (m', e) ∧ q = e.map .m ++ q' := by
      intro a' m e hm hee
      subst hee
      cases p with
      | nil =>
        simp only [List.nil_append, List.cons_append, List.cons.injEq, Ev.act.injEq] at he
        obtain ⟨rfl, rfl⟩ := he
        exact ⟨[], s, m, e, e2, rfl, hm, rfl⟩
      | cons y p =>
        simp only [List.cons_append, List.cons.injEq] at he
        obtain ⟨rfl, he⟩ := he
        rcases List.append_eq_append_iff.1 he with ⟨r, k1, k2⟩ | ⟨r, k1, k2⟩
        · cases r with
          | nil => exact later (r := []) (by simp_all) (by simpa using k2.symm)
          | cons z r =>
            simp only [List.cons_append, List.cons.injEq] at k2
            obtain ⟨rfl, -⟩ := k2
            have : (.act x : Ev A E) ∈ e.map .m := by rw [k1]; simp
            simp at this
        · exact later (by rw [k1]; rfl) k2
    cases tr_of_step h1 with
    | quiet a' m e hm' hw => exact hm hm' rfl
    | wake j a' m e t x' xe hm' hw hx => exact hm hm' rfl
    | ex a' x' e hx =>
      rcases List.append_eq_append_iff.1 he with ⟨r, k1, k2⟩ | ⟨r, k1, k2⟩
      · cases r with
        | nil => exact later (r := []) (by simp_all) (by simpa using k2.symm)
        | cons z r =>
          simp only [List.cons_append, List.cons.injEq] at k2
          obtain ⟨rfl, -⟩ := k2
          have : (.act x : Ev A E) ∈ e.map .ex := by rw [k1]; simp
          simp at this
      · exact later k1 k2

section
variable {T : Type}

theorem signal_returned {xc} {s : St (Signal.St T)} {tr b1 b2} {t i : Nat} (hx : Reach (signal T xc) s tr) (hb : SinceLastPoll t tr (b1 ++ .m (.reg t) :: b2)) (hlast : ∀ w, .m (.reg w) ∉ b2) (hret : .act (.wake i) ∈ b2) :
    ∃ e, (signal T xc).woke e = some t ∧ .m e ∈ b1 ++ .m (.reg t) :: b2 := by
  obtain ⟨a, rfl, -, -⟩ := hb
  obtain ⟨c1, c2, rfl⟩ := List.append_of_mem hret
  obtain ⟨as, hx⟩ := hx
  obtain ⟨as1, s1, m', e, q', k1, k2, rfl⟩ := act_split (p := a ++ .ex (.polled t) :: (b1 ++ .m (.reg t) :: c1)) as (by simpa using hx)
  have h := Signal.C94_signal (signal_reach ⟨as1, k1⟩) k2 (a := mEvs (a ++ .ex (.polled t) :: b1)) (w := t) (b := mEvs c1 ++ e) (by simp [mEvs_append, mEvs])
    (by
      intro w hw
      rcases List.mem_append.1 hw with hw | hw
      · exact hlast w (List.mem_append_left _ (mem_mEvs.1 hw))
      · exact hlast w (List.mem_append_right _ (List.mem_cons_of_mem _ (List.mem_append_left _ (List.mem_map_of_mem hw)))))
  refine ⟨.woke t, rfl, List.mem_append_right _ (List.mem_cons_of_mem _ ?_)⟩
  rcases List.mem_append.1 h with h | h
  · exact List.mem_append_left _ (mem_mEvs.1 h)
  · exact List.mem_append_right _ (List.mem_cons_of_mem _ (List.mem_append_left _ (List.mem_map_of_mem h)))

theorem watch_returned {xc} {s : St (Watch.St T)} {tr b1 b2} {t i : Nat} (hx : Reach (watch T xc) s tr) (hb : SinceLastPoll t tr (b1 ++ .m (.reg t) :: b2)) (hlast : ∀ w, .m (.reg w) ∉ b2) (hret : .act (.wake i) ∈ b2) :
    ∃ e, (watch T xc).woke e = some t ∧ .m e ∈ b1 ++ .m (.reg t) :: b2 := by
  obtain ⟨a, rfl, -, -⟩ := hb
  obtain ⟨c1, c2, rfl⟩ := List.append_of_mem hret
  obtain ⟨as, hx⟩ := hx
  obtain ⟨as1, s1, m', e, q', k1, k2, rfl⟩ := act_split (p := a ++ .ex (.polled t) :: (b1 ++ .m (.reg t) :: c1)) as (by simpa using hx)
  have h := Watch.C94_watch (watch_reach ⟨as1, k1⟩) k2 (a := mEvs (a ++ .ex (.polled t) :: b1)) (w := t) (b := mEvs c1 ++ e) (by simp [mEvs_append, mEvs])
    (by
      intro w hw
      rcases List.mem_append.1 hw with hw | hw
      · exact hlast w (List.mem_append_left _ (mem_mEvs.1 hw))
      · exact hlast w (List.mem_append_right _ (List.mem_cons_of_mem _ (List.mem_append_left _ (List.mem_map_of_mem hw)))))
  refine ⟨.woke t, rfl, List.mem_append_right _ (List.mem_cons_of_mem _ ?_)⟩
  rcases List.mem_append.1 h with h | h
  · exact List.mem_append_left _ (mem_mEvs.1 h)
  · exact List.mem_append_right _ (List.mem_cons_of_mem _ (List.mem_append_left _ (List.mem_map_of_mem h)))

/-- a send that has returned `Ok`, in the history -/
theorem sendOk_woken {n i : Nat} {s : Channel.St T} {tr : List (Channel.Ev T)} (h : Channel.Reach n s tr) :
    ∀ a w b, tr = a ++ .reg w :: b → (∀ w', .reg w' ∉ b) → .sendOk i ∈ b → .wokeR w ∈ b := by
  have gone : ∀ {s s' : Channel.St T} {e}, Channel.Tr n s s' e → .sendOk i ∈ e → s'.rwk = none := by
    intro s s' e ht hm
    cases ht with
    | pushedS j w hi hw => rfl
    | pushedN j hi hw => exact hw
    | drop1None j v k hi hx => cases k <;> simp [Channel.finEv] at hm
    | drop1Free j v k x hi hx hq => cases k <;> simp [Channel.finEv] at hm
    | drop1Bad j v k x j' q hi hx hq hl => cases k <;> simp [Channel.finEv] at hm
    | drop1Grant j v k x j' q l hi hx hq hl => cases k <;> simp [Channel.finEv] at hm
    | _ => simp at hm
  refine ((Channel.reach_induct (P := fun s tr => (∀ w, Channel.regState none tr = some (w, false) → s.rwk = some w) ∧ ∀ a w b, tr = a ++ .reg w :: b → (∀ w', .reg w' ∉ b) → .sendOk i ∈ b → .wokeR w ∈ b) ⟨?_, ?_⟩ ?_ h).2).2
  · intro w hw; cases hw
  · intro a w b hb; simp at hb
  · intro s tr s' e hI ih ht
    have hcell := Channel.cell_tr ih.1 ht
    refine ⟨hcell, ?_⟩
    intro a w b hb hlast hret
    by_cases hok : .sendOk i ∈ e
    · refine Classical.byContradiction fun hno => ?_
      have hc := hcell w
      rw [hb, Channel.regState_append] at hc
      have : Channel.regState (Channel.regState none a) (.reg w :: b) = some (w, false) := by
        cases Channel.regState none a <;> simp only [Channel.regState] <;> exact Channel.regState_since rfl hlast hno
      have := hc this
      rw [gone ht hok] at this
      cases this
    · rcases List.append_eq_append_iff.1 hb with ⟨r, k1, k2⟩ | ⟨r, k1, k2⟩
      · exact absurd (by rw [k2]; exact List.mem_append_right _ (List.mem_cons_of_mem _ hret)) hok
      · cases r with
        | nil =>
          simp only [List.nil_append] at k2
          exact absurd (by rw [← k2]; exact List.mem_cons_of_mem _ hret) hok
        | cons z r =>
          simp only [List.cons_append, List.cons.injEq] at k2
          obtain ⟨rfl, rfl⟩ := k2
          rcases List.mem_append.1 hret with hret | hret
          · exact List.mem_append_left _ (ih.2 a w r k1 (fun w' h => hlast w' (List.mem_append_left _ h)) hret)
          · exact absurd hret hok

theorem recv_returned {n : Nat} {xc} {s : St (Channel.St T)} {tr b1 b2} {t i : Nat} (hx : Reach (channel T n xc) s tr) (hb : SinceLastPoll t tr (b1 ++ .m (.reg t) :: b2)) (hlast : ∀ w, .m (.reg w) ∉ b2) (hret : .m (.sendOk i) ∈ b2) :
    ∃ e, (channel T n xc).woke e = some t ∧ .m e ∈ b1 ++ .m (.reg t) :: b2 := by
  obtain ⟨a, rfl, -, -⟩ := hb
  have h := sendOk_woken (i := i) (channel_reach hx) (mEvs (a ++ .ex (.polled t) :: b1)) t (mEvs b2) (by simp [mEvs_append, mEvs]) (fun w hw => hlast w (mem_mEvs.1 hw)) (mem_mEvs.2 hret)
  exact ⟨.wokeR t, rfl, List.mem_append_right _ (List.mem_cons_of_mem _ (mem_mEvs.1 h))⟩

/-! **C79** when the operation that makes the future ready has returned; other writers or senders may be suspended anywhere. -/

/-- **C79** (`Signal`, returned) Task `t` has registered its waker in its latest poll, nobody has registered another one since, and a `write` or `clear` has returned since: the task will be polled. -/
theorem C79_signal_returned {xc} {s : St (Signal.St T)} {tr b1 b2} {t i : Nat} (ht : t ∈ xc.ts) (hx : Reach (signal T xc) s tr) (hb : SinceLastPoll t tr (b1 ++ .m (.reg t) :: b2)) (hlast : ∀ w, .m (.reg w) ∉ b2) (hret : .act (.wake i) ∈ b2) (hno : NoCall t s.ex) :
    WillBePolled (signal T xc) t s ∧ (Executor.Ready xc s.ex ∨ s.ex.ub = true) := woken_polled ht hx hb (signal_returned hx hb hlast hret) hno

/-- **C79** (`Watch`, returned) the same for `changed()` and `Watch::write`. -/
theorem C79_watch_returned {xc} {s : St (Watch.St T)} {tr b1 b2} {t i : Nat} (ht : t ∈ xc.ts) (hx : Reach (watch T xc) s tr) (hb : SinceLastPoll t tr (b1 ++ .m (.reg t) :: b2)) (hlast : ∀ w, .m (.reg w) ∉ b2) (hret : .act (.wake i) ∈ b2) (hno : NoCall t s.ex) :
    WillBePolled (watch T xc) t s ∧ (Executor.Ready xc s.ex ∨ s.ex.ub = true) := woken_polled ht hx hb (watch_returned hx hb hlast hret) hno

/-- **C79** (`Channel`, returned) the same for `recv()`, when a `send` or `try_send` has returned `Ok`. -/
theorem C79_recv_returned {n : Nat} {xc} {s : St (Channel.St T)} {tr b1 b2} {t i : Nat} (ht : t ∈ xc.ts) (hx : Reach (channel T n xc) s tr) (hb : SinceLastPoll t tr (b1 ++ .m (.reg t) :: b2)) (hlast : ∀ w, .m (.reg w) ∉ b2) (hret : .m (.sendOk i) ∈ b2) (hno : NoCall t s.ex) :
    WillBePolled (channel T n xc) t s ∧ (Executor.Ready xc s.ex ∨ s.ex.ub = true) := woken_polled ht hx hb (recv_returned hx hb hlast hret) hno

-- the demonstrations of `Verif.Await.Props` meet the hypotheses
example : ∃ s tr, Reach (channel Nat 1 demoXc) s tr ∧ Channel.queued s.m = [42] ∧ WillBePolled (channel Nat 1 demoXc) 1 s := by
  refine ⟨_, _, ⟨demoChanActs, rfl⟩, rfl, (C79_recv_returned (t := 1) (i := 0) (by decide) ⟨demoChanActs, rfl⟩ (b1 := [.act (.pollRecv 1), .act .goR])
    (b2 := [.act .goR, .act .goR, .m .recvPending, .act (.startTry 0 42), .m (.start 0 42), .act (.go 0), .act (.go 0), .act (.go 0), .act (.go 0), .act (.go 0), .m (.enq 0 42), .act (.go 0), .m (.wokeR 1), .m (.sendOk 0)])
    ⟨[.ex (.ok 1 5), .ex (.started 1 5)], rfl, by decide, by decide⟩ (by simp) (by simp) (demo_nocall rfl rfl fun j h3 h9 => ?_)).1⟩
  simp [Executor.upd, h3, h9, init, Executor.init, channel, demoChan]

example : ∃ s tr, Reach (signal Nat demoXc) s tr ∧ s.m.store = some 42 ∧ WillBePolled (signal Nat demoXc) 1 s := by
  refine ⟨_, _, ⟨demoSigActs, rfl⟩, rfl, (C79_signal_returned (t := 1) (i := 0) (by decide) ⟨demoSigActs, rfl⟩ (b1 := [.act .wait, .act (.poll 1), .act .go])
    (b2 := [.act .go, .m (.read none), .act (.write 0 (some 42)), .m (.stored 42), .act (.wake 0), .m (.woke 1)]) ⟨[.ex (.ok 1 5), .ex (.started 1 5)], rfl, by decide, by decide⟩ (by simp) (by simp) (demo_nocall rfl rfl fun j h3 h9 => ?_)).1⟩
  simp [Executor.upd, h3, h9, init, Executor.init, signal, demoSig]

example : ∃ s tr, Reach (watch Nat demoXc) s tr ∧ s.m.store = some 42 ∧ WillBePolled (watch Nat demoXc) 1 s := by
  refine ⟨_, _, ⟨demoWatchActs, rfl⟩, rfl, (C79_watch_returned (t := 1) (i := 0) (by decide) ⟨demoWatchActs, rfl⟩ (b1 := [.act .changed, .act (.poll 1), .act .go])
    (b2 := [.act .go, .act .go, .m (.copied none), .act (.write 0 42), .m (.stored 42), .act (.wake 0), .m (.woke 1)]) ⟨[.ex (.ok 1 5), .ex (.started 1 5)], rfl, by decide, by decide⟩ (by simp) (by simp) (demo_nocall rfl rfl fun j h3 h9 => ?_)).1⟩
  simp [Executor.upd, h3, h9, init, Executor.init, watch, demoWatch]

end

end Verif.Await
