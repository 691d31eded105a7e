import Verif.Race.NotHb
import Verif.Executor.Model

/-!
# The memory accesses of the executor

The machine of `Verif.Executor`, annotated with the memory orderings of `rtic/src/export/executor.rs`. The non-atomic memory is
the storage `task` of each executor. Thread `i` of the machine runs on thread `th i` of the memory model (`th` is arbitrary, so
threads of the machine may share one), the dispatcher is thread 0.

A release store or the release part of a read-modify-write gets a token of its own; an acquire read-modify-write acquires the
token of the store that it reads from, which is the last one. Relaxed accesses have no token. (That the read of `running` by
`is_running` is relaxed is therefore no synchronisation.)
-/

namespace Verif.Race.Executor

open Verif.Executor Verif.Race

structure X where
  s : St
  /-- next token -/
  n : Nat
  /-- token of the last store to `pending` -/
  lp : Nat → Nat
  /-- token of the last store to `running` -/
  lr : Nat → Nat
  /-- the memory events so far; location `t` is the storage of task `t` -/
  tr : List (MEv Nat)

/-- The memory events of a step. -/
def note (th : Nat → Nat) (x : X) : Act → X
  | .thr i =>
    match x.s.pc i with
    -- `executor.rs:256-258`: AcqRel if it succeeds, relaxed if it fails
    | .s1 t _ =>
      if x.s.running t then x
      else { x with n := x.n + 1, lr := upd x.lr t x.n, tr := x.tr ++ [{ tid := th i, acq := [x.lr t], rel := [x.n] }] }
    -- `executor.rs:266`
    | .s2 t _ => { x with tr := x.tr ++ [naEv (th i) [] [t]] }
    -- `executor.rs:249`: Release
    | .s3 t => { x with n := x.n + 1, lp := upd x.lp t x.n, tr := x.tr ++ [{ tid := th i, rel := [x.n] }] }
    | .w1 t => { x with n := x.n + 1, lp := upd x.lp t x.n, tr := x.tr ++ [{ tid := th i, rel := [x.n] }] }
    | _ => x
  | .disp _ =>
    match x.s.d with
    -- `executor.rs:241-242`: Acquire if it succeeds, relaxed if it fails
    | .pend t _ => if x.s.pending t then { x with tr := x.tr ++ [{ tid := 0, acq := [x.lp t] }] } else x
    -- `executor.rs:282-284`: the future is changed by `poll`
    | .poll t _ => { x with tr := x.tr ++ [naEv 0 [] [t]] }
    | .body t _ => { x with tr := x.tr ++ [naEv 0 [] [t]] }
    -- `executor.rs:286`: Release
    | .rel t _ => { x with n := x.n + 1, lr := upd x.lr t x.n, tr := x.tr ++ [{ tid := 0, rel := [x.n] }] }
    | _ => x
  | _ => x

def stepX (c : Cfg) (th : Nat → Nat) (x : X) (a : Act) : Option X :=
  match step c x.s a with
  | none => none
  | some (s1, _) => some { note th x a with s := s1 }

/-- Nobody has released tokens 0 and 1. -/
def initX : X := { s := init, n := 2, lp := fun _ => 1, lr := fun _ => 1, tr := [] }

def run (c : Cfg) (th : Nat → Nat) (x : X) : List Act → X
  | [] => x
  | a :: as =>
    match stepX c th x a with
    | none => x
    | some x1 => run c th x1 as

/-- What the program has to observe: a waker sets the flag of a task only while the future that it was made for is polled and
not complete, and no flag is left over when the task is spawned again. -/
def okAct (s : St) : Act → Prop
  | .thr i =>
    match s.pc i with
    | .s1 t _ => s.running t = false → s.pending t = false
    | .w1 t => ∃ a, s.slot t = .begun a
    | _ => True
  | _ => True

def Legal (c : Cfg) (s : St) : List Act → Prop
  | [] => True
  | a :: as =>
    okAct s a ∧
    match step c s a with
    | none => True
    | some (s1, _) => Legal c s1 as

/-! ## Invariant -/

/-- the dispatcher is working on the storage of `t` -/
def onD (t : Nat) : Dpc → Bool
  | .poll u _ | .body u _ | .rel u _ => u == t
  | _ => false

/-- a spawner between allocation and pending of `t` -/
def holds (t : Nat) : Tpc → Bool
  | .s2 u _ | .s3 u => u == t
  | _ => false

structure IX (th : Nat → Nat) (s : St) (lp lr : Nat → Nat) (S R : Nat → Nat → Prop) : Prop where
  free : ∀ t, s.running t = false → R (lr t) t ∧ (∀ i, holds t (s.pc i) = false)
  hold : ∀ i t, holds t (s.pc i) = true → s.pending t = false ∧ S (th i) t ∧ onD t s.d = false
  wrote : ∀ i t, s.pc i = .s3 t → ∃ a, s.slot t = .fresh a
  uniq : ∀ i j t, holds t (s.pc i) = true → holds t (s.pc j) = true → i = j
  live : ∀ t, s.running t = true → (∀ i, holds t (s.pc i) = false) →
    S 0 t ∨ (s.pending t = true ∧ R (lp t) t ∧ (∃ a, s.slot t = .fresh a) ∧ onD t s.d = false)
  disp : ∀ t, onD t s.d = true → s.running t = true ∧ S 0 t
  pendD : ∀ t rest, s.d = .pend t rest → s.running t = true
  beg : ∀ t a, s.slot t = .begun a → s.running t = true ∧ S 0 t ∧ (∀ i, holds t (s.pc i) = false)
  relD : ∀ t rest, s.d = .rel t rest → s.slot t = .done
  bodyD : ∀ t rest, s.d = .body t rest → ∀ a, s.slot t ≠ .fresh a

/-- what an event that touches nothing does -/
structure Sync (e : MEv Nat) (S R S' R' : Nat → Nat → Prop) : Prop where
  s : ∀ u l, S u l → S' u l
  r : ∀ k l, R k l → R' k l
  acq : ∀ k l, k ∈ e.acq → R k l → S' e.tid l
  rel : ∀ k l, k ∈ e.rel → S e.tid l → R' k l

theorem sync_snoc {tr : List (MEv Nat)} {e : MEv Nat} (h1 : e.rd = []) (h2 : e.wr = []) :
    Sync e (AllSeen tr) (AllRel tr) (AllSeen (tr ++ [e])) (AllRel (tr ++ [e])) := by
  have hn : ∀ l, ¬ e.touches l := by intro l; simp [MEv.touches, h1, h2]
  exact ⟨fun u l h => allSeen_snoc h (fun ht => absurd ht (hn l)), fun k l h => allRel_snoc h (fun ht => absurd ht (hn l)),
    fun k l hk h => allSeen_of_rel h hk, fun k l hk h => allRel_of_seen h hk⟩

theorem race_sync {tr : List (MEv Nat)} {e : MEv Nat} (h1 : e.rd = []) (h2 : e.wr = []) (h : RaceFree tr) : RaceFree (tr ++ [e]) :=
  raceFree_snoc h (by simp [h1]) (by simp [h2])

/-- what an access of thread `u` to `t` does -/
structure Acc (u t : Nat) (S R S' R' : Nat → Nat → Prop) : Prop where
  s : ∀ v l, l ≠ t → S v l → S' v l
  r : ∀ k l, l ≠ t → R k l → R' k l
  own : S u t → S' u t

theorem acc_snoc {tr : List (MEv Nat)} {u t : Nat} :
    Acc u t (AllSeen tr) (AllRel tr) (AllSeen (tr ++ [naEv u [] [t]])) (AllRel (tr ++ [naEv u [] [t]])) := by
  have hn : ∀ l, l ≠ t → ¬ (naEv u [] [t] : MEv Nat).touches l := by intro l hl; simp [MEv.touches, naEv, hl]
  exact ⟨fun v l hl h => allSeen_snoc h (fun ht => absurd ht (hn l hl)), fun k l hl h => allRel_snoc h (fun ht => absurd ht (hn l hl)),
    fun h => allSeen_snoc h (fun _ => rfl)⟩

theorem race_acc {tr : List (MEv Nat)} {u t : Nat} (h : RaceFree tr) (hs : AllSeen tr u t) : RaceFree (tr ++ [naEv u [] [t]]) :=
  raceFree_snoc h (by simp [naEv]) (fun l hl => .inl (by simp [naEv] at hl; subst hl; exact hs))

section
variable {th : Nat → Nat} {s : St} {lp lr : Nat → Nat} {S R S' R' : Nat → Nat → Prop} {e : MEv Nat}

theorem ix_same {s1 : St} (h : IX th s lp lr S R) (h1 : s1.running = s.running) (h2 : s1.pending = s.pending) (h3 : s1.slot = s.slot)
    (h4 : ∀ i t, holds t (s1.pc i) = holds t (s.pc i)) (h4' : ∀ i t, s1.pc i = .s3 t → s.pc i = .s3 t)
    (h5 : ∀ t, onD t s1.d = onD t s.d) (h6 : ∀ t r, s1.d = .pend t r → s.running t = true) (h7 : ∀ t r, s1.d = .rel t r → s.d = .rel t r)
    (h8 : ∀ t r, s1.d = .body t r → s.d = .body t r) :
    IX th s1 lp lr S R := by
  obtain ⟨a1, a2, a3, a4, a5, a6, a7, a8, a9, a10⟩ := h
  refine ⟨?_, ?_, ?_, ?_, ?_, ?_, ?_, ?_, ?_, ?_⟩
  all_goals simp only [h1, h2, h3, h4, h5] at *
  all_goals grind

theorem ix_s1 {i t a n : Nat} (h : IX th s lp lr S R) (hy : Sync e S R S' R') (hp : s.pc i = .s1 t a) (hr : s.running t = false)
    (hpd : s.pending t = false) (e1 : e.tid = th i) (e2 : e.acq = [lr t]) :
    IX th { s with running := upd s.running t true, pc := upd s.pc i (.s2 t a) } lp (upd lr t n) S' R' := by
  obtain ⟨a1, a2, a3, a4, a5, a6, a7, a8, a9, a10⟩ := h
  obtain ⟨b1, b2, b3, b4⟩ := hy
  have hS : S' (th i) t := e1 ▸ b3 (lr t) t (by simp [e2]) (a1 t hr).1
  have hH : holds t (.s2 t a) = true := by simp [holds]
  have hH' : ∀ u, u ≠ t → holds u (.s2 t a) = false := by intro u hu; simp [holds]; exact fun h => hu h.symm
  have hH2 : ∀ u, holds u (s.pc i) = false := by simp [holds, hp]
  have hD : onD t s.d = false := by
    cases hd : onD t s.d with
    | false => rfl
    | true => rw [(a6 t hd).1] at hr; cases hr
  refine ⟨?_, ?_, ?_, ?_, ?_, ?_, ?_, ?_, ?_, ?_⟩
  all_goals simp only [upd]
  all_goals grind

theorem ix_s2 {i t a : Nat} (h : IX th s lp lr S R) (hy : Acc (th i) t S R S' R') (hp : s.pc i = .s2 t a) :
    IX th { s with slot := upd s.slot t (.fresh a), pc := upd s.pc i (.s3 t) } lp lr S' R' := by
  obtain ⟨a1, a2, a3, a4, a5, a6, a7, a8, a9, a10⟩ := h
  obtain ⟨b1, b2, b3⟩ := hy
  have hH : ∀ u, holds u (.s3 t) = holds u (s.pc i) := by intro u; simp [holds, hp]
  have hT : holds t (s.pc i) = true := by simp [holds, hp]
  have hT' : ∀ u, u ≠ t → holds u (s.pc i) = false := by intro u hu; simp [holds, hp]; exact fun h => hu h.symm
  have hrel : ∀ r, s.d ≠ .rel t r := by intro r hr; have := (a2 i t hT).2.2; simp [hr, onD] at this
  have hbod : ∀ r, s.d ≠ .body t r := by intro r hr; have := (a2 i t hT).2.2; simp [hr, onD] at this
  have hw : ∀ j u, upd s.pc i (.s3 t) j = .s3 u → ∃ b, upd s.slot t (.fresh a) u = .fresh b := by
    intro j u hj
    by_cases hu : u = t
    · exact ⟨a, by simp [upd, hu]⟩
    · by_cases hji : j = i
      · simp [upd, hji] at hj; exact absurd hj.symm hu
      · simp [upd, hji] at hj; simpa [upd, hu] using a3 j u hj
  refine ⟨?_, ?_, hw, ?_, ?_, ?_, ?_, ?_, ?_, ?_⟩
  all_goals simp only [upd]
  all_goals grind

theorem ix_s3 {i t n : Nat} (h : IX th s lp lr S R) (hy : Sync e S R S' R') (hp : s.pc i = .s3 t) (e1 : e.tid = th i) (e3 : e.rel = [n]) :
    IX th { s with pending := upd s.pending t true, pc := upd s.pc i (.p t) } (upd lp t n) lr S' R' := by
  obtain ⟨a1, a2, a3, a4, a5, a6, a7, a8, a9, a10⟩ := h
  obtain ⟨b1, b2, b3, b4⟩ := hy
  have hT : holds t (s.pc i) = true := by simp [holds, hp]
  have hT' : ∀ u, u ≠ t → holds u (s.pc i) = false := by intro u hu; simp [holds, hp]; exact fun h => hu h.symm
  have hP : ∀ u, holds u (.p t) = false := by intro u; simp [holds]
  have hR : R' n t := b4 n t (by simp [e3]) (e1 ▸ (a2 i t hT).2.1)
  refine ⟨?_, ?_, ?_, ?_, ?_, ?_, ?_, ?_, ?_, ?_⟩
  all_goals simp only [upd]
  all_goals grind

theorem ix_w1 {i t n : Nat} (h : IX th s lp lr S R) (hy : Sync e S R S' R') (hp : s.pc i = .w1 t) (hb : ∃ a, s.slot t = .begun a) :
    IX th { s with pending := upd s.pending t true, pc := upd s.pc i (.p t) } (upd lp t n) lr S' R' := by
  obtain ⟨a1, a2, a3, a4, a5, a6, a7, a8, a9, a10⟩ := h
  obtain ⟨b1, b2, b3, b4⟩ := hy
  have hT : ∀ u, holds u (s.pc i) = false := by simp [holds, hp]
  have hP : ∀ u, holds u (.p t) = false := by intro u; simp [holds]
  refine ⟨?_, ?_, ?_, ?_, ?_, ?_, ?_, ?_, ?_, ?_⟩
  all_goals simp only [upd]
  all_goals grind

theorem ix_pend {t : Nat} {rest : List Nat} (h : IX th s lp lr S R) (hy : Sync e S R S' R') (hd : s.d = .pend t rest) (hp : s.pending t = true)
    (e1 : e.tid = 0) (e2 : e.acq = [lp t]) :
    IX th { s with pending := upd s.pending t false, d := .poll t rest } lp lr S' R' := by
  obtain ⟨a1, a2, a3, a4, a5, a6, a7, a8, a9, a10⟩ := h
  obtain ⟨b1, b2, b3, b4⟩ := hy
  have hr := a7 t rest hd
  have hn : ∀ i, holds t (s.pc i) = false := by
    intro i
    cases hh : holds t (s.pc i) with
    | false => rfl
    | true => rw [(a2 i t hh).1] at hp; cases hp
  have hS : S' 0 t := by
    rcases a5 t hr hn with h1 | ⟨_, h1, _⟩
    · exact b1 0 t h1
    · exact e1 ▸ b3 (lp t) t (by simp [e2]) h1
  have hO : onD t (.poll t rest) = true := by simp [onD]
  have hO' : ∀ u, u ≠ t → onD u (.poll t rest) = false := by intro u hu; simp [onD]; exact fun h => hu h.symm
  have hO2 : ∀ u, onD u s.d = false := by simp [onD, hd]
  refine ⟨?_, ?_, ?_, ?_, ?_, ?_, ?_, ?_, ?_, ?_⟩
  all_goals simp only [upd]
  all_goals grind

theorem ix_access {t : Nat} {sl : Nat → Slot} {d : Dpc} {ub : Bool} (h : IX th s lp lr S R) (hy : Acc 0 t S R S' R') (ho : onD t s.d = true)
    (hsl : ∀ u, u ≠ t → sl u = s.slot u) (hfr : ∀ a, sl t ≠ .fresh a) (hd : ∀ u, onD u d = true → onD u s.d = true) (hpd : ∀ u r, d ≠ .pend u r)
    (hrl : ∀ u r, d = .rel u r → sl u = .done)
    (hbd : ∀ u r, d = .body u r → u = t) : IX th { s with slot := sl, d := d, ub := ub } lp lr S' R' := by
  obtain ⟨a1, a2, a3, a4, a5, a6, a7, a8, a9, a10⟩ := h
  obtain ⟨b1, b2, b3⟩ := hy
  have hr := (a6 t ho).1
  have hS := b3 (a6 t ho).2
  have hn : ∀ i, holds t (s.pc i) = false := by
    intro i
    cases hh : holds t (s.pc i) with
    | false => rfl
    | true => rw [(a2 i t hh).2.2] at ho; cases ho
  have h3 : ∀ i u, s.pc i = .s3 u → holds u (s.pc i) = true := by intro i u h; simp [h, holds]
  refine ⟨?_, ?_, ?_, ?_, ?_, ?_, ?_, ?_, ?_, ?_⟩
  all_goals simp only
  all_goals grind

theorem ix_rel {t n : Nat} {rest : List Nat} (h : IX th s lp lr S R) (hy : Sync e S R S' R') (hd : s.d = .rel t rest) (e1 : e.tid = 0) (e3 : e.rel = [n]) :
    IX th { s with running := upd s.running t false, d := .run rest } lp (upd lr t n) S' R' := by
  obtain ⟨a1, a2, a3, a4, a5, a6, a7, a8, a9, a10⟩ := h
  obtain ⟨b1, b2, b3, b4⟩ := hy
  have ho : onD t s.d = true := by simp [onD, hd]
  have ho' : ∀ u, u ≠ t → onD u s.d = false := by intro u hu; simp [onD, hd]; exact fun h => hu h.symm
  have hO : ∀ u, onD u (.run rest) = false := by simp [onD]
  have hR : R' n t := b4 n t (by simp [e3]) (e1 ▸ (a6 t ho).2)
  have hn : ∀ i, holds t (s.pc i) = false := by
    intro i
    cases hh : holds t (s.pc i) with
    | false => rfl
    | true => rw [(a2 i t hh).2.2] at ho; cases ho
  have hdn := a9 t rest hd
  refine ⟨?_, ?_, ?_, ?_, ?_, ?_, ?_, ?_, ?_, ?_⟩
  all_goals simp only [upd]
  all_goals grind

end

theorem ix_step {c : Cfg} {th : Nat → Nat} {x x1 : X} {a : Act} (h : IX th x.s x.lp x.lr (AllSeen x.tr) (AllRel x.tr)) (hr : RaceFree x.tr)
    (hl : okAct x.s a) (hs : stepX c th x a = some x1) : IX th x1.s x1.lp x1.lr (AllSeen x1.tr) (AllRel x1.tr) ∧ RaceFree x1.tr := by
  obtain ⟨s, n, lp, lr, tr⟩ := x
  simp only at h hr hl
  unfold stepX step at hs
  simp only at hs
  by_cases hub : s.ub = true
  · simp [hub] at hs
  simp only [hub, Bool.false_eq_true, if_false] at hs
  cases a with
  | callSpawn i t a =>
    by_cases hc : s.pc i = .idle ∧ t ∈ c.ts
    · simp only [hc, and_self, if_true] at hs
      cases hs
      refine ⟨ix_same h rfl rfl rfl ?_ ?_ (fun _ => rfl) (fun t r hd => h.pendD t r hd) (fun _ _ hd => hd) (fun _ _ hd => hd), hr⟩
      · intro j u; by_cases hj : j = i <;> simp [note, upd, hj, hc.1, holds]
      · intro j u hj; by_cases hji : j = i
        · simp [upd, hji] at hj
        · simpa [upd, hji] using hj
    · simp only [hc, if_false] at hs; cases hs
  | callWake i t =>
    by_cases hc : s.pc i = .idle ∧ t ∈ c.ts
    · simp only [hc, and_self, if_true] at hs
      cases hs
      refine ⟨ix_same h rfl rfl rfl ?_ ?_ (fun _ => rfl) (fun t r hd => h.pendD t r hd) (fun _ _ hd => hd) (fun _ _ hd => hd), hr⟩
      · intro j u; by_cases hj : j = i <;> simp [note, upd, hj, hc.1, holds]
      · intro j u hj; by_cases hji : j = i
        · simp [upd, hji] at hj
        · simpa [upd, hji] using hj
    · simp only [hc, if_false] at hs; cases hs
  | thr i =>
    simp only [stepThr, note] at hs
    simp only [okAct] at hl
    cases hp : s.pc i with
    | idle => simp only [hp] at hs; cases hs
    | s1 t a =>
      simp only [hp] at hs hl
      cases hrun : s.running t with
      | true =>
        simp only [hrun, if_true] at hs
        cases hs
        refine ⟨ix_same h rfl rfl rfl ?_ ?_ (fun _ => rfl) (fun t r hd => h.pendD t r hd) (fun _ _ hd => hd) (fun _ _ hd => hd), hr⟩
        · intro j u; by_cases hj : j = i <;> simp [upd, hj, hp, holds]
        · intro j u hj; by_cases hji : j = i
          · simp [upd, hji] at hj
          · simpa [upd, hji] using hj
      | false =>
        simp only [hrun, Bool.false_eq_true, if_false] at hs
        cases hs
        exact ⟨ix_s1 h (sync_snoc rfl rfl) hp hrun (hl hrun) rfl rfl, race_sync rfl rfl hr⟩
    | s2 t a =>
      simp only [hp] at hs
      cases hs
      have hT : holds t (s.pc i) = true := by simp [holds, hp]
      exact ⟨ix_s2 h acc_snoc hp, race_acc hr (h.hold i t hT).2.1⟩
    | s3 t =>
      simp only [hp] at hs
      cases hs
      exact ⟨ix_s3 h (sync_snoc rfl rfl) hp rfl rfl, race_sync rfl rfl hr⟩
    | w1 t =>
      simp only [hp] at hs hl
      cases hs
      exact ⟨ix_w1 h (sync_snoc rfl rfl) hp hl, race_sync rfl rfl hr⟩
    | p t =>
      simp only [hp] at hs
      cases hs
      refine ⟨ix_same h rfl rfl rfl ?_ ?_ (fun _ => rfl) (fun t r hd => h.pendD t r hd) (fun _ _ hd => hd) (fun _ _ hd => hd), hr⟩
      · intro j u; by_cases hj : j = i <;> simp [upd, hj, hp, holds]
      · intro j u hj; by_cases hji : j = i
        · simp [upd, hji] at hj
        · simpa [upd, hji] using hj
  | disp r =>
    simp only [stepDisp, note] at hs
    cases hd : s.d with
    | idle =>
      simp only [hd] at hs
      by_cases hi : (s.irq || c.zero) = true
      · simp only [hi, if_true] at hs
        cases hs
        exact ⟨ix_same h rfl rfl rfl (fun _ _ => rfl) (fun _ _ h => h) (fun t => by simp [onD, hd]) (fun t r h => by cases h)
          (fun t r h => by cases h) (fun t r h => by cases h), hr⟩
      · simp only [hi] at hs; cases hs
    | run l =>
      cases l with
      | nil =>
        simp only [hd] at hs
        cases hs
        exact ⟨ix_same h rfl rfl rfl (fun _ _ => rfl) (fun _ _ h => h) (fun t => by simp [onD, hd]) (fun t r h => by cases h)
          (fun t r h => by cases h) (fun t r h => by cases h), hr⟩
      | cons t rest =>
        simp only [hd] at hs
        cases hs
        refine ⟨ix_same h rfl rfl rfl (fun _ _ => rfl) (fun _ _ h => h) (fun u => ?_) (fun u r h1 => ?_) (fun u r h1 => ?_) (fun u r h1 => ?_), hr⟩
        · cases hrun : s.running t <;> simp [onD, hd]
        · cases hrun : s.running t <;> simp [hrun] at h1
          rw [← h1.1]; exact hrun
        · cases hrun : s.running t <;> simp [hrun] at h1
        · cases hrun : s.running t <;> simp [hrun] at h1
    | pend t rest =>
      simp only [hd] at hs
      cases hpe : s.pending t with
      | true =>
        simp only [hpe, if_true] at hs
        cases hs
        exact ⟨ix_pend h (sync_snoc rfl rfl) hd hpe rfl rfl, race_sync rfl rfl hr⟩
      | false =>
        simp only [hpe, Bool.false_eq_true, if_false] at hs
        cases hs
        exact ⟨ix_same h rfl rfl rfl (fun _ _ => rfl) (fun _ _ h => h) (fun t => by simp [onD, hd]) (fun t r h => by cases h)
          (fun t r h => by cases h) (fun t r h => by cases h), hr⟩
    | poll t rest =>
      have ho : onD t s.d = true := by simp [onD, hd]
      simp only [hd] at hs
      have hra : RaceFree (tr ++ [naEv 0 [] [t]]) := race_acc hr (h.disp t ho).2
      cases hsl : s.slot t with
      | fresh a =>
        simp only [hsl] at hs
        cases hs
        exact ⟨ix_access (ub := s.ub) h acc_snoc ho (fun u hu => by simp [upd, hu]) (by simp [upd]) (by simp [onD, hd]) (by simp) (by simp) (fun u r h => by cases h; rfl), hra⟩
      | begun a =>
        simp only [hsl] at hs
        cases hs
        exact ⟨ix_access (sl := s.slot) (ub := s.ub) h acc_snoc ho (fun u hu => rfl) (by simp [hsl]) (by simp [onD, hd]) (by simp) (by simp) (fun u r h => by cases h; rfl), hra⟩
      | empty =>
        simp only [hsl] at hs
        cases hs
        exact ⟨ix_access (sl := s.slot) (d := .poll t rest) h acc_snoc ho (fun u hu => rfl) (by simp [hsl]) (by simp [onD, hd]) (by simp) (by simp) (by simp), hra⟩
      | done =>
        simp only [hsl] at hs
        cases hs
        exact ⟨ix_access (sl := s.slot) (d := .poll t rest) h acc_snoc ho (fun u hu => rfl) (by simp [hsl]) (by simp [onD, hd]) (by simp) (by simp) (by simp), hra⟩
    | body t rest =>
      have ho : onD t s.d = true := by simp [onD, hd]
      simp only [hd] at hs
      have hra : RaceFree (tr ++ [naEv 0 [] [t]]) := race_acc hr (h.disp t ho).2
      cases r with
      | true =>
        simp only [if_true] at hs
        cases hs
        exact ⟨ix_access (ub := s.ub) h acc_snoc ho (fun u hu => by simp [upd, hu]) (by simp [upd]) (by simp [onD, hd]) (by simp)
          (fun u r h => by cases h; simp [upd]) (by simp), hra⟩
      | false =>
        simp only [Bool.false_eq_true, if_false] at hs
        cases hs
        refine ⟨ix_access (sl := s.slot) (ub := s.ub) h acc_snoc ho (fun u hu => rfl) ?_ (by simp [onD]) (by simp) (by simp) (by simp), hra⟩
        exact h.bodyD t rest hd
    | rel t rest =>
      simp only [hd] at hs
      cases hs
      exact ⟨ix_rel h (sync_snoc rfl rfl) hd rfl rfl, race_sync rfl rfl hr⟩

theorem ix_init (th : Nat → Nat) : IX th init (fun _ => 1) (fun _ => 1) (AllSeen []) (AllRel []) := by
  constructor <;> simp [init, holds, onD, AllRel]

theorem ix_run {c : Cfg} {th : Nat → Nat} : ∀ (as : List Act) (x : X), IX th x.s x.lp x.lr (AllSeen x.tr) (AllRel x.tr) → RaceFree x.tr →
    Legal c x.s as → RaceFree (run c th x as).tr
  | [], x, _, hr, _ => hr
  | a :: as, x, h, hr, hl => by
    simp only [run]
    cases hs : stepX c th x a with
    | none => exact hr
    | some x1 =>
      obtain ⟨h1, h2⟩ := ix_step h hr hl.1 hs
      refine ix_run as x1 h1 h2 ?_
      have := hl.2
      unfold stepX at hs
      cases hst : step c x.s a with
      | none => rw [hst] at hs; cases hs
      | some r => rw [hst] at hs this; cases hs; exact this

/-- **C113** (partial) On any number of cores: if wakers set the flag of a task only while the future they were made for is alive (polled and
not complete), and no flag is left over when the task is spawned again, then all accesses to the storage of every task are ordered by
happens-before: the future written by `spawn` is visible to the dispatcher that polls it, and the storage is not reused before the
dispatcher has finished with it. -/
theorem C113_executor_race_free_partial {c : Cfg} (th : Nat → Nat) {as : List Act} (hl : Legal c init as) :
    RaceFree (run c th initX as).tr :=
  ix_run as initX (ix_init th) raceFree_nil hl

/-! ### One core -/

theorem tid_note {th : Nat → Nat} (ht : ∀ i, th i = 0) {x : X} {a : Act} (h : ∀ e ∈ x.tr, e.tid = 0) : ∀ e ∈ (note th x a).tr, e.tid = 0 := by
  intro e he
  have key : ∀ ev : MEv Nat, ev.tid = 0 → e ∈ x.tr ++ [ev] → e.tid = 0 := by
    intro ev h1 h2
    rcases List.mem_append.1 h2 with h3 | h3
    · exact h e h3
    · simp at h3; subst h3; exact h1
  cases a with
  | callSpawn i t a => exact h e he
  | callWake i t => exact h e he
  | thr i =>
    simp only [note] at he
    split at he
    · split at he
      · exact h e he
      · exact key _ (ht i) he
    · exact key _ (ht i) he
    · exact key _ (ht i) he
    · exact key _ (ht i) he
    · exact h e he
  | disp r =>
    simp only [note] at he
    split at he
    · split at he
      · exact key _ rfl he
      · exact h e he
    · exact key _ rfl he
    · exact key _ rfl he
    · exact key _ rfl he
    · exact h e he

/-- **C113** (one core) If dispatcher, spawners and wakers run on one core, there is no data race, whatever the wakers do. (But see C38.) -/
theorem C113_one_core {c : Cfg} {th : Nat → Nat} (ht : ∀ i, th i = 0) (as : List Act) : RaceFree (run c th initX as).tr := by
  have key : ∀ (as : List Act) (x : X), (∀ e ∈ x.tr, e.tid = 0) → ∀ e ∈ (run c th x as).tr, e.tid = 0 := by
    intro as
    induction as with
    | nil => exact fun x h => h
    | cons a as ih =>
      intro x h
      simp only [run]
      cases hs : stepX c th x a with
      | none => exact h
      | some x1 =>
        refine ih x1 ?_
        unfold stepX at hs
        cases hst : step c x.s a with
        | none => rw [hst] at hs; cases hs
        | some r => rw [hst] at hs; cases hs; exact tid_note ht h
  intro i j a b lt ha hb _
  have h0 := key as initX (by simp [initX])
  exact .po lt ha hb ((h0 a (List.mem_of_getElem? ha)).trans (h0 b (List.mem_of_getElem? hb)).symm)

/-! ### Examples and what is false -/

def cfg1 : Cfg := { ts := [0], zero := false }

/-- Task 0 is spawned by thread 0 and polled, thread 1 wakes it, it is polled again and completes; then it is spawned again and polled. -/
def normal : List Act :=
  [.callSpawn 0 0 7, .thr 0, .thr 0, .thr 0, .thr 0, .disp false, .disp false, .disp false, .disp false, .disp false, .disp false,
   .callWake 1 0, .thr 1, .thr 1, .disp false, .disp false, .disp false, .disp false, .disp true, .disp false, .disp false,
   .callSpawn 0 0 8, .thr 0, .thr 0, .thr 0, .thr 0, .disp false, .disp false, .disp false, .disp false]

/-- The hypothesis of `C113_executor_race_free_partial` holds of it … -/
example : Legal cfg1 init normal := by
  unfold normal
  iterate 31 (first | exact trivial | refine ⟨by first | trivial | exact fun _ => rfl | exact ⟨7, rfl⟩, ?_⟩)

/-- … and these are its memory events. -/
example : (run cfg1 (· + 1) initX normal).tr =
    [{ tid := 1, acq := [1], rel := [2] }, { tid := 1, wr := [0] }, { tid := 1, rel := [3] }, { tid := 0, acq := [3] }, { tid := 0, wr := [0] },
     { tid := 0, wr := [0] }, { tid := 2, rel := [4] }, { tid := 0, acq := [4] }, { tid := 0, wr := [0] }, { tid := 0, wr := [0] },
     { tid := 0, rel := [5] }, { tid := 1, acq := [5], rel := [6] }, { tid := 1, wr := [0] }, { tid := 1, rel := [7] },
     { tid := 0, acq := [7] }, { tid := 0, wr := [0] }] := by decide +kernel

/-- As before, but task 0 completes in its first poll, and thread 1 uses its waker of that instance after the next one has been spawned
and before it is polled. -/
def late : List Act :=
  [.callSpawn 0 0 7, .thr 0, .thr 0, .thr 0, .thr 0, .disp false, .disp false, .disp false, .disp false, .disp true, .disp false, .disp false,
   .callSpawn 0 0 8, .thr 0, .thr 0, .thr 0, .callWake 1 0, .thr 1, .thr 0, .disp false, .disp false, .disp false, .disp false]

theorem run_late : (run cfg1 (· + 1) initX late).tr =
    [{ tid := 1, acq := [1], rel := [2] }, { tid := 1, wr := [0] }, { tid := 1, rel := [3] }, { tid := 0, acq := [3] }, { tid := 0, wr := [0] },
     { tid := 0, wr := [0] }, { tid := 0, rel := [4] }, { tid := 1, acq := [4], rel := [5] }, { tid := 1, wr := [0] }, { tid := 1, rel := [6] },
     { tid := 2, rel := [7] }, { tid := 0, acq := [7] }, { tid := 0, wr := [0] }] := by decide +kernel

/-- **C113**, what is false on several cores: a waker of an earlier instance overwrites the flag that `spawn` has set; the dispatcher reads the flag
from the waker and has not synchronised with the spawner, whose future it polls. -/
theorem C113_late_waker_violated : ¬ ∀ (c : Cfg) (th : Nat → Nat) (as : List Act), RaceFree (run c th initX as).tr := by
  intro h
  have h1 := h cfg1 (· + 1) late
  rw [run_late] at h1
  exact race_of_closed (fun i => i == 8 || i == 9) (i := 8) (j := 12) (by omega) rfl rfl ⟨0, .inl ⟨by simp, .inr (by simp)⟩⟩
    (by decide +kernel) rfl rfl h1

end Verif.Race.Executor
