import Verif.Intrusive.Timer

/-! # C81: delays are never accessed after they are gone -/

namespace Verif.Intrusive.Tim

open Verif.TimerList Verif.TimerQueue

/-- the pointer machine in the state that corresponds to `s` -/
def mk (s : TimerQueue.St) (c : TL) (fut : Nat → Option Nat) (used : Nat → Bool) (who : Nat → Nat) (ids : List Nat) : PSt :=
  { now := s.now, c := c, inst := s.inst, pc := s.pc, fut := fut, used := used, who := who, ids := ids, h := s.h, en := s.en, flag := s.flag, pend := s.pend, other := s.other, cmp := s.cmp, req := s.req, bad := false }

structure G (s : TimerQueue.St) (c : TL) (fut : Nat → Option Nat) (used : Nat → Bool) (who : Nat → Nat) (ids : List Nat) : Prop where
  chain : ∃ as, Chain c.mem c.head as ∧ as.map some = s.q.map fun e => fut e.id
  vals : ∀ e ∈ s.q, ∀ a, fut e.id = some a → ∃ nd, c.mem a = some nd ∧ nd.val = { waker := e.wk, time := e.time, popped := false }
  lk : ∀ i a, fut i = some a → (c.mem a).map (·.val.popped) = s.lk i
  rest : ∀ a, (∀ i, fut i ≠ some a) → c.mem a = none
  inj : ∀ i j a, fut i = some a → fut j = some a → i = j
  used : ∀ a, used a = true ↔ ∃ i, fut i = some a
  live : ∀ i, fut i ≠ none ↔ s.pc i ≠ .none
  who : ∀ i a, fut i = some a → who a = i
  ids : ∀ i, fut i ≠ none → i ∈ ids

theorem G.congr {s s' : TimerQueue.St} {c fut used who ids} (h : G s c fut used who ids) (h1 : s'.q = s.q) (h2 : s'.lk = s.lk) (h3 : ∀ i, s'.pc i = .none ↔ s.pc i = .none) : G s' c fut used who ids := by
  obtain ⟨a1, a2, a3, a4, a5, a6, a7, a8, a9⟩ := h
  exact ⟨by rw [h1]; exact a1, by rw [h1]; exact a2, by rw [h2]; exact a3, a4, a5, a6, fun i => by rw [Ne, Ne, h3 i]; exact a7 i, a8, a9⟩

theorem pc_set {s : TimerQueue.St} {i : Nat} {p : Dpc} (h : p ≠ .none) (h0 : s.pc i ≠ .none) : ∀ j, TimerQueue.set s.pc i p j = .none ↔ s.pc j = .none := by
  intro j; simp only [TimerQueue.set]; split
  · subst j; simp [h, h0]
  · rfl

theorem G.addr {s : TimerQueue.St} {c fut used who ids} (h : G s c fut used who ids) {i : Nat} (hl : s.pc i ≠ .none) : ∃ a, fut i = some a :=
  Option.ne_none_iff_exists'.1 ((h.live i).2 hl)

theorem addrs_nodup {fut : Nat → Option Nat} (inj : ∀ i j a, fut i = some a → fut j = some a → i = j) : ∀ {as : List Nat} {q : List E}, as.map some = q.map (fun e => fut e.id) → (q.map (·.id)).Nodup → as.Nodup
  | [], _, _, _ => List.nodup_nil
  | a :: as, [], h, _ => by cases h
  | a :: as, e :: q, h, hn => by
    simp only [List.map_cons, List.cons.injEq] at h
    rw [List.map_cons, List.nodup_cons] at hn
    refine List.nodup_cons.2 ⟨?_, addrs_nodup inj h.2 hn.2⟩
    intro ha
    have : some a ∈ q.map (fun e => fut e.id) := by rw [← h.2]; exact List.mem_map_of_mem ha
    obtain ⟨e', he', h2⟩ := List.mem_map.1 this
    exact hn.1 (by rw [inj _ _ _ h.1.symm h2]; exact List.mem_map_of_mem he')

theorem addrs_mem {fut : Nat → Option Nat} (inj : ∀ i j a, fut i = some a → fut j = some a → i = j) {as : List Nat} {q : List E} (h : as.map some = q.map fun e => fut e.id) {i a : Nat} (ha : fut i = some a) : a ∈ as ↔ ∃ e ∈ q, e.id = i := by
  have h1 : a ∈ as ↔ some a ∈ as.map some := by simp
  rw [h1, h, List.mem_map]
  constructor
  · rintro ⟨e, he, hx⟩; exact ⟨e, he, inj _ _ _ hx ha⟩
  · rintro ⟨e, he, rfl⟩; exact ⟨e, he, ha⟩

theorem filter_map {fut : Nat → Option Nat} (inj : ∀ i j a, fut i = some a → fut j = some a → i = j) {i a : Nat} (ha : fut i = some a) : ∀ {as : List Nat} {q : List E}, as.map some = q.map (fun e => fut e.id) → (as.filter (· ≠ a)).map some = (q.filter (fun e => e.id ≠ i)).map (fun e => fut e.id)
  | [], [], _ => rfl
  | [], _ :: _, h => by cases h
  | _ :: _, [], h => by cases h
  | x :: as, e :: q, h => by
    simp only [List.map_cons, List.cons.injEq] at h
    have ih := filter_map inj ha h.2
    by_cases hx : x = a
    · subst hx
      have : e.id = i := inj _ _ _ h.1.symm ha
      simpa [this] using ih
    · have : e.id ≠ i := by intro e1; rw [e1, ha] at h; exact hx (by simpa using h.1)
      simp only [List.filter_cons, ne_eq, hx, not_false_eq_true, decide_true, if_true, this, List.map_cons, h.1, List.cons.injEq, true_and]
      simpa using ih

theorem ins_map {w : Nat} {fut : Nat → Option Nat} {lt : Nat → Bool} {a : Nat} {e0 : E} (ha : fut e0.id = some a) : ∀ {as : List Nat} {q : List E}, as.map some = q.map (fun e => fut e.id) → (∀ e ∈ q, ∀ x, fut e.id = some x → lt x = before w e0.time e.time) →
    (ins lt a as).map some = (insE w e0 q).map (fun e => fut e.id)
  | [], [], _, _ => by simp [ins, insE, ha]
  | [], _ :: _, h, _ => by cases h
  | _ :: _, [], h, _ => by cases h
  | x :: as, e :: q, h, hlt => by
    simp only [List.map_cons, List.cons.injEq] at h
    have ih := ins_map ha h.2 (fun e he => hlt e (List.mem_cons_of_mem _ he))
    have h0 := hlt e (List.mem_cons_self ..) x h.1.symm
    simp only [ins, insE, h0]
    split
    · simp [ha, h.1, h.2]
    · simp [h.1, ih]

theorem ins_head {w : Nat} {fut : Nat → Option Nat} {lt : Nat → Bool} {a : Nat} {e0 : E} {as : List Nat} {q : List E} (h : as.map some = q.map (fun e => fut e.id)) (hna : a ∉ as) (hlt : ∀ e ∈ q, ∀ x, fut e.id = some x → lt x = before w e0.time e.time) :
    decide ((ins lt a as).head? = some a) = headUpd w e0 q := by
  cases as with
  | nil => cases q with
    | nil => simp [ins, headUpd]
    | cons e q => cases h
  | cons x as => cases q with
    | nil => cases h
    | cons e q =>
      simp only [List.map_cons, List.cons.injEq] at h
      have h0 := hlt e (List.mem_cons_self ..) x h.1.symm
      have hx : x ≠ a := by rintro rfl; simp at hna
      simp only [ins, headUpd, h0]
      split <;> rename_i hb <;> simp [hb, hx]

theorem mem_insE {w : Nat} {e0 e : E} : ∀ {q : List E}, e ∈ insE w e0 q ↔ e = e0 ∨ e ∈ q
  | [] => by simp [insE]
  | x :: q => by
    simp only [insE]
    split
    · simp
    · simp only [List.mem_cons, mem_insE (q := q)]; grind

/-- the link of `i` is in the list iff it exists and was not popped -/
theorem waits_iff {b : Cfg} {s : TimerQueue.St} (hI : Inv b s) {i : Nat} (hp : s.pc i ≠ .none) : (∃ e ∈ s.q, e.id = i) ↔ s.lk i = some false := by
  rw [hI.mem i]
  constructor
  · exact fun h => h.2
  · intro h
    refine ⟨?_, h⟩
    cases hpc : s.pc i with
    | none => exact absurd hpc hp
    | alive => simp
    | p1 w => rw [hI.p1 i w hpc] at h; cases h
    | p2 => simp
    | d1 => simp

theorem waiting_iff {b : Cfg} {s : TimerQueue.St} {c fut used who ids} (h : G s c fut used who ids) (hI : Inv b s) (t : Nat) : t ∈ (mk s c fut used who ids).waiting ↔ ∃ e ∈ s.q, e.time = t := by
  unfold PSt.waiting
  rw [List.mem_filterMap]
  show (∃ i, i ∈ ids ∧ (match fut i with | none => none | some a => match c.mem a with | some nd => if nd.val.popped then none else some nd.val.time | none => none) = some t) ↔ _
  constructor
  · rintro ⟨i, -, hi⟩
    cases hf : fut i with
    | none => rw [hf] at hi; cases hi
    | some a =>
      cases hm : c.mem a with
      | none => rw [hf] at hi; simp only [hm] at hi; cases hi
      | some nd =>
        rw [hf] at hi
        simp only [hm] at hi
        have hl := h.lk i a hf
        rw [hm] at hl
        cases hp : nd.val.popped with
        | true => simp [hp] at hi
        | false =>
          simp only [hp, Bool.false_eq_true, if_false, Option.some.injEq] at hi
          simp only [Option.map_some, hp] at hl
          obtain ⟨e, he, rfl⟩ := (waits_iff hI ((h.live i).1 (by simp [hf]))).2 hl.symm
          obtain ⟨nd', h1, h2⟩ := h.vals e he a hf
          rw [hm] at h1; cases h1
          exact ⟨e, he, by rw [← hi, h2]⟩
  · rintro ⟨e, he, rfl⟩
    have hpc : s.pc e.id ≠ .none := by
      rcases ((hI.mem e.id).1 ⟨e, he, rfl⟩).1 with h | h | h <;> rw [h] <;> simp
    obtain ⟨a, ha⟩ := h.addr hpc
    obtain ⟨nd, h1, h2⟩ := h.vals e he a ha
    refine ⟨e.id, h.ids _ (by simp [ha]), ?_⟩
    rw [ha]
    simp only [h1, h2]
    rfl

theorem chain_upd {mem : Nat → Option Node} {a : Nat} {x : Option Node} {p : Option Nat} {q : List Nat} (h : Chain mem p q) (ha : a ∉ q) : Chain (upd mem a x) p q :=
  chain_frame q p (fun b hb => by rw [upd_ne _ _ (by rintro rfl; exact ha hb)]) h

/-- the memory of a `Delay` whose link is not in the list is released -/
theorem release_sim {s s' : TimerQueue.St} {c fut used who ids} {i a : Nat} (h : G s c fut used who ids) (ha : fut i = some a) (hni : ∀ e ∈ s.q, e.id ≠ i) (hs : s' = { s with pc := TimerQueue.set s.pc i .none }) :
    release (mk s c fut used who ids) i a = mk s' { c with mem := upd c.mem a none } (fset fut i none) (fset used a false) who ids ∧ G s' { c with mem := upd c.mem a none } (fset fut i none) (fset used a false) who ids := by
  subst hs
  refine ⟨rfl, ?_⟩
  have hadd : ∀ k b, fset fut i none k = some b → fut k = some b ∧ k ≠ i ∧ b ≠ a := by
    intro k b hk
    by_cases e : k = i
    · subst e; simp at hk
    · rw [fset_ne _ _ e] at hk
      exact ⟨hk, e, by rintro rfl; exact e (h.inj _ _ _ hk ha)⟩
  obtain ⟨as, h1, h2⟩ := h.chain
  have hna : a ∉ as := by
    intro hh
    obtain ⟨e, he, hx⟩ := (addrs_mem h.inj h2 ha).1 hh
    exact hni e he hx
  refine ⟨⟨as, chain_upd h1 hna, ?_⟩, ?_, ?_, ?_, ?_, ?_, ?_, ?_, ?_⟩
  · rw [h2]; exact List.map_congr_left fun e he => (fset_ne _ _ (hni e he)).symm
  · intro e he b hb
    obtain ⟨h3, -, h4⟩ := hadd _ _ hb
    simp only [upd_ne _ _ h4]
    exact h.vals e he b h3
  · intro k b hb
    obtain ⟨h3, -, h4⟩ := hadd _ _ hb
    simp only [upd_ne _ _ h4]
    exact h.lk k b h3
  · intro b hb
    by_cases e : b = a
    · subst e; simp
    · simp only [upd_ne _ _ e]
      refine h.rest b fun k hk => ?_
      by_cases e' : k = i
      · subst e'; rw [ha] at hk; exact e (by simpa using hk.symm)
      · exact hb k (by rw [fset_ne _ _ e']; exact hk)
  · intro j k b hj hk; exact h.inj j k b (hadd _ _ hj).1 (hadd _ _ hk).1
  · intro b
    by_cases e : b = a
    · subst e
      simp only [fset_same, Bool.false_eq_true, false_iff, not_exists]
      intro k hk
      exact (hadd _ _ hk).2.2 rfl
    · rw [fset_ne _ _ e, h.used b]
      constructor
      · rintro ⟨k, hk⟩
        exact ⟨k, by rw [fset_ne _ _ (by rintro rfl; rw [ha] at hk; exact e (by simpa using hk.symm))]; exact hk⟩
      · rintro ⟨k, hk⟩; exact ⟨k, (hadd _ _ hk).1⟩
  · intro k
    show _ ↔ TimerQueue.set s.pc i .none k ≠ .none
    by_cases e : k = i
    · subst e; simp
    · rw [fset_ne _ _ e]; simp only [TimerQueue.set, e, if_false]; exact h.live k
  · intro k b hb; exact h.who k b (hadd _ _ hb).1
  · intro k hk
    refine h.ids k ?_
    by_cases e : k = i
    · subst e; simp at hk
    · rwa [fset_ne _ _ e] at hk

theorem step_sim {b : Cfg} {x : Nat} {a : Act} {s : TimerQueue.St} {c fut used who ids} (h : G s c fut used who ids) (hI : Inv b s) :
    (TimerQueue.step b s a = none → step b (mk s c fut used who ids) a x = none) ∧
    ∀ s' e, TimerQueue.step b s a = some (s', e) → (∀ i t, a = .create i t → used x = false) →
      ∃ c' fut' used' who' ids', step b (mk s c fut used who ids) a x = some (mk s' c' fut' used' who' ids', e) ∧ G s' c' fut' used' who' ids' := by
  have hm : (mk s c fut used who ids).pc = s.pc := rfl
  have hh : (mk s c fut used who ids).h = s.h := rfl
  have hn : (mk s c fut used who ids).now = s.now := rfl
  have hin : (mk s c fut used who ids).inst = s.inst := rfl
  have hfu : (mk s c fut used who ids).fut = fut := rfl
  have hcc : (mk s c fut used who ids).c = c := rfl
  have hir : (mk s c fut used who ids).irq = s.irq := rfl
  have hwt := waiting_iff h hI
  cases a with
  | tick m o p =>
    have hg : ((∀ t ∈ (mk s c fut used who ids).waiting, s.now + 1 < t + half b.w) ∧ (∀ t, s.h.inst? = some t → s.now + 1 < t + half b.w) ∧ (s.cmp = some (s.now + 1) → (m || o || p) = true)) ↔
        ((∀ e ∈ s.q, s.now + 1 < e.time + half b.w) ∧ (∀ t, s.h.inst? = some t → s.now + 1 < t + half b.w) ∧ (s.cmp = some (s.now + 1) → (m || o || p) = true)) := by
      refine and_congr_left fun _ => ⟨fun hh e he => hh e.time ((hwt _).2 ⟨e, he, rfl⟩), fun hh t ht => ?_⟩
      obtain ⟨e, he, rfl⟩ := (hwt _).1 ht
      exact hh e he
    constructor
    · intro he
      simp only [TimerQueue.step] at he
      split at he
      · cases he
      · rename_i hc
        simp only [step]
        exact if_neg (fun hx => hc (hg.1 hx))
    · intro s' e he _
      simp only [TimerQueue.step] at he
      split at he
      · rename_i hc
        cases he
        exact ⟨c, fut, used, who, ids, by simp only [step]; exact if_pos (hg.2 hc), h.congr rfl rfl (fun _ => Iff.rfl)⟩
      · cases he
  | create i t =>
    cases hp : s.pc i with
    | none =>
      refine ⟨(by intro he; simp only [TimerQueue.step, hp] at he; cases he), ?_⟩
      intro s' e he hf
      have hf := hf i t rfl
      simp only [TimerQueue.step, hp] at he
      cases he
      have hni : fut i = none := by
        cases hfi : fut i with
        | none => rfl
        | some a => exact absurd hp ((h.live i).1 (by simp [hfi]))
      have hfx : ∀ j, fut j ≠ some x := by
        intro j hj
        have := (h.used x).2 ⟨j, hj⟩
        rw [hf] at this; cases this
      have hadd : ∀ k y, fset fut i (some x) k = some y → (k = i ∧ y = x) ∨ (k ≠ i ∧ y ≠ x ∧ fut k = some y) := by
        intro k y hk
        by_cases e : k = i
        · subst e; simp at hk; exact Or.inl ⟨rfl, hk.symm⟩
        · rw [fset_ne _ _ e] at hk; exact Or.inr ⟨e, by rintro rfl; exact hfx k hk, hk⟩
      have hnq : ∀ e ∈ s.q, e.id ≠ i := by
        intro e he hx
        have := ((hI.mem i).1 ⟨e, he, hx⟩).1
        rw [hp] at this; simp at this
      refine ⟨c, fset fut i (some x), fset used x true, fset who x i, i :: ids, ?_, ?_⟩
      · simp only [step, hm, hp]; exact if_pos hf
      · obtain ⟨as, h1, h2⟩ := h.chain
        refine ⟨⟨as, h1, ?_⟩, ?_, ?_, ?_, ?_, ?_, ?_, ?_, ?_⟩
        · show _ = s.q.map _
          rw [h2]; exact List.map_congr_left fun e he => (fset_ne _ _ (hnq e he)).symm
        · intro e he y hy
          rcases hadd _ _ hy with ⟨h3, -⟩ | ⟨-, -, h3⟩
          · exact absurd h3 (hnq e he)
          · exact h.vals e he y h3
        · intro k y hy
          show _ = TimerQueue.set s.lk i none k
          rcases hadd _ _ hy with ⟨rfl, rfl⟩ | ⟨h3, -, h4⟩
          · simp [h.rest y hfx]
          · simp only [TimerQueue.set, h3, if_false]; exact h.lk k y h4
        · intro y hy
          refine h.rest y fun k hk => ?_
          by_cases e : k = i
          · subst e; rw [hni] at hk; cases hk
          · exact hy k (by rw [fset_ne _ _ e]; exact hk)
        · intro j k y hj hk
          rcases hadd _ _ hj with ⟨rfl, rfl⟩ | ⟨-, h3, h4⟩ <;> rcases hadd _ _ hk with ⟨rfl, h5⟩ | ⟨-, h6, h7⟩
          · rfl
          · exact absurd rfl h6
          · exact absurd h5 h3
          · exact h.inj j k y h4 h7
        · intro y
          by_cases e : y = x
          · subst e; simp; exact ⟨i, by simp⟩
          · rw [fset_ne _ _ e, h.used y]
            constructor
            · rintro ⟨k, hk⟩
              exact ⟨k, by rw [fset_ne _ _ (by rintro rfl; rw [hni] at hk; cases hk)]; exact hk⟩
            · rintro ⟨k, hk⟩
              rcases hadd _ _ hk with ⟨-, h3⟩ | ⟨-, -, h3⟩
              · exact absurd h3 e
              · exact ⟨k, h3⟩
        · intro k
          show _ ↔ TimerQueue.set s.pc i _ k ≠ .none
          by_cases e : k = i
          · subst e; simp
          · rw [fset_ne _ _ e]; simp only [TimerQueue.set, e, if_false]; exact h.live k
        · intro k y hy
          rcases hadd _ _ hy with ⟨rfl, rfl⟩ | ⟨-, h3, h4⟩
          · simp
          · rw [fset_ne _ _ h3]; exact h.who k y h4
        · intro k hk
          by_cases e : k = i
          · subst e; simp
          · rw [fset_ne _ _ e] at hk; exact List.mem_cons_of_mem _ (h.ids k hk)
    | _ => exact ⟨(by intro _; simp only [step, hm, hp]), (by intro s' e he; simp only [TimerQueue.step, hp] at he; cases he)⟩
  | poll i wk =>
    cases hp : s.pc i with
    | alive =>
      obtain ⟨y, hy⟩ := h.addr (i := i) (by simp [hp])
      have hl := h.lk i y hy
      cases hnr : near b.w s.now (s.inst i) with
      | false => exact ⟨(by intro _; simp only [step, hm, hp, hn, hin, hnr, Bool.false_eq_true, if_false]), (by intro s' e he; simp only [TimerQueue.step, hp, hnr, Bool.false_eq_true, if_false] at he; cases he)⟩
      | true =>
        cases hal : atLeast b.w s.now (s.inst i) with
        | true =>
          refine ⟨(by intro he; simp only [TimerQueue.step, hp, hnr, hal, if_true] at he; cases he), ?_⟩
          intro s' e he _
          simp only [TimerQueue.step, hp, hnr, hal, if_true] at he
          cases he
          exact ⟨c, fut, used, who, ids, by simp only [step, hm, hp, hn, hin, hnr, hal, if_true], h⟩
        | false =>
          cases hlk : s.lk i with
          | some pb =>
            rw [hlk] at hl
            obtain ⟨nd, hnd, -⟩ := Option.map_eq_some_iff.1 hl
            refine ⟨(by intro he; simp only [TimerQueue.step, hp, hnr, hal, if_true, Bool.false_eq_true, if_false, hlk] at he; cases he), ?_⟩
            intro s' e he _
            simp only [TimerQueue.step, hp, hnr, hal, if_true, Bool.false_eq_true, if_false, hlk] at he
            cases he
            exact ⟨c, fut, used, who, ids, by simp only [step, hm, hp, hn, hin, hnr, hal, if_true, Bool.false_eq_true, if_false, hfu, hy, hcc, hnd], h⟩
          | none =>
            rw [hlk] at hl
            have hnd : c.mem y = none := by simpa using hl
            refine ⟨(by intro he; simp only [TimerQueue.step, hp, hnr, hal, if_true, Bool.false_eq_true, if_false, hlk] at he; cases he), ?_⟩
            intro s' e he _
            simp only [TimerQueue.step, hp, hnr, hal, if_true, Bool.false_eq_true, if_false, hlk] at he
            cases he
            exact ⟨c, fut, used, who, ids, by simp only [step, hm, hp, hn, hin, hnr, hal, if_true, Bool.false_eq_true, if_false, hfu, hy, hcc, hnd]; rfl, h.congr rfl rfl (pc_set (by simp) (by simp [hp]))⟩
    | _ => exact ⟨(by intro _; simp only [step, hm, hp]), (by intro s' e he; simp only [TimerQueue.step, hp] at he; cases he)⟩
  | ins i =>
    cases hp : s.pc i with
    | p1 wk =>
      obtain ⟨y, hy⟩ := h.addr (i := i) (by simp [hp])
      have hlk := hI.p1 i wk hp
      have hg : (near b.w s.now (s.inst i) = true ∧ ∀ t ∈ (mk s c fut used who ids).waiting, near b.w t (s.inst i) = true) ↔ (near b.w s.now (s.inst i) = true ∧ ∀ e ∈ s.q, near b.w e.time (s.inst i) = true) := by
        refine and_congr_right fun _ => ⟨fun hh e he => hh e.time ((hwt _).2 ⟨e, he, rfl⟩), fun hh t ht => ?_⟩
        obtain ⟨e, he, rfl⟩ := (hwt _).1 ht
        exact hh e he
      by_cases hc : near b.w s.now (s.inst i) = true ∧ ∀ e ∈ s.q, near b.w e.time (s.inst i) = true
      · have hc' := hg.2 hc
        refine ⟨(by intro he; simp only [TimerQueue.step, hp, if_pos hc] at he; cases he), ?_⟩
        intro s' e he _
        simp only [TimerQueue.step, hp, if_pos hc] at he
        cases he
        obtain ⟨as, h1, h2⟩ := h.chain
        have hnd := addrs_nodup h.inj h2 hI.nodup
        have hnq : ∀ e ∈ s.q, e.id ≠ i := by
          intro e he hx
          have := ((hI.mem i).1 ⟨e, he, hx⟩).1
          rw [hp] at this; simp at this
        have hna : y ∉ as := by
          intro hh
          obtain ⟨e, he, hx⟩ := (addrs_mem h.inj h2 hy).1 hh
          exact hnq e he hx
        obtain ⟨c', hins, hch, hval⟩ := TimerList.insert_spec b.w (c.newLink y wk (s.inst i)) y { waker := wk, time := s.inst i, popped := false } as (by simp [TL.newLink]) (chain_upd h1 hna) hnd hna
        have hlt : ∀ e ∈ s.q, ∀ z, fut e.id = some z → ltAt b.w (c.newLink y wk (s.inst i)) { waker := wk, time := s.inst i, popped := false } z = before b.w (s.inst i) e.time := by
          intro e he z hz
          have hzy : z ≠ y := by rintro rfl; exact hnq e he (h.inj _ _ _ hz hy)
          obtain ⟨nd, h3, h4⟩ := h.vals e he z hz
          simp only [ltAt, TL.newLink, upd_ne _ _ hzy, h3, h4]
          rfl
        have hmap := ins_map (w := b.w) (fut := fut) (e0 := { id := i, wk := wk, time := s.inst i }) hy h2 hlt
        have hhd := ins_head (w := b.w) (fut := fut) (e0 := { id := i, wk := wk, time := s.inst i }) h2 hna hlt
        rw [hhd] at hins
        have hins' : ((mk s c fut used who ids).c.newLink y wk ((mk s c fut used who ids).inst i)).insert b.w y = _ := hins
        have hvalne : ∀ z, z ≠ y → (c'.mem z).map (·.val) = (c.mem z).map (·.val) := by
          intro z hz; rw [hval z]; simp [TL.newLink, upd_ne _ _ hz]
        have hvaly : (c'.mem y).map (·.val) = some { waker := wk, time := s.inst i, popped := false } := by
          rw [hval y]; simp [TL.newLink]
        refine ⟨c', fut, used, who, ids, ?_, ⟨_, hch, hmap⟩, ?_, ?_, ?_, h.inj, h.used, ?_, h.who, h.ids⟩
        · simp only [step, hm, hp]
          rw [if_pos (show near b.w (mk s c fut used who ids).now ((mk s c fut used who ids).inst i) = true ∧ ∀ t ∈ (mk s c fut used who ids).waiting, near b.w t ((mk s c fut used who ids).inst i) = true from hc')]
          simp only [hfu, hy, hins']
          rfl
        · intro e he z hz
          rcases mem_insE.1 he with rfl | he
          · have : z = y := by rw [hy] at hz; simpa using hz.symm
            subst this
            exact Option.map_eq_some_iff.1 hvaly
          · have hzy : z ≠ y := by rintro rfl; exact hnq e he (h.inj _ _ _ hz hy)
            obtain ⟨nd, h3, h4⟩ := h.vals e he z hz
            have := hvalne z hzy
            rw [h3, Option.map_some, h4] at this
            exact Option.map_eq_some_iff.1 this
        · intro k z hz
          show _ = TimerQueue.set s.lk i (some false) k
          by_cases e : k = i
          · subst e
            have : z = y := by rw [hy] at hz; simpa using hz.symm
            subst this
            have := congrArg (Option.map (·.popped)) hvaly
            simpa [Function.comp_def] using this
          · have hzy : z ≠ y := by rintro rfl; exact e (h.inj _ _ _ hz hy)
            have := congrArg (Option.map (·.popped)) (hvalne z hzy)
            simp only [Option.map_map, Function.comp_def] at this
            simp only [TimerQueue.set, e, if_false]
            rw [this]; exact h.lk k z hz
        · intro z hz
          have hzy : z ≠ y := by rintro rfl; exact hz i hy
          have := hvalne z hzy
          rw [h.rest z hz] at this
          simpa using this
        · intro k
          show _ ↔ TimerQueue.set s.pc i _ k ≠ .none
          rw [Ne, Ne, pc_set (by split <;> simp) (by simp [hp])]
          exact h.live k
      · have hc' := fun hx => hc (hg.1 hx)
        exact ⟨(by intro _; simp only [step, hm, hp]; exact if_neg hc'), (by intro s' e he; simp only [TimerQueue.step, hp, if_neg hc] at he; cases he)⟩
    | _ => exact ⟨(by intro _; simp only [step, hm, hp]), (by intro s' e he; simp only [TimerQueue.step, hp] at he; cases he)⟩
  | pend i =>
    cases hp : s.pc i with
    | p2 =>
      refine ⟨(by intro he; simp only [TimerQueue.step, hp] at he; cases he), ?_⟩
      intro s' e he _
      simp only [TimerQueue.step, hp] at he
      cases he
      exact ⟨c, fut, used, who, ids, by simp only [step, hm, hp]; rfl, h.congr rfl rfl (pc_set (by simp) (by simp [hp]))⟩
    | _ => exact ⟨(by intro _; simp only [step, hm, hp]), (by intro s' e he; simp only [TimerQueue.step, hp] at he; cases he)⟩
  | drop i =>
    cases hp : s.pc i with
    | alive =>
      obtain ⟨y, hy⟩ := h.addr (i := i) (by simp [hp])
      have hl := h.lk i y hy
      have hnone : s.lk i ≠ some false → ∀ e ∈ s.q, e.id ≠ i := by
        intro hx e he hid
        exact hx ((waits_iff hI (by simp [hp])).1 ⟨e, he, hid⟩)
      cases hlk : s.lk i with
      | none =>
        rw [hlk] at hl
        have hnd : c.mem y = none := by simpa using hl
        refine ⟨(by intro he; simp only [TimerQueue.step, hp, hlk] at he; cases he), ?_⟩
        intro s' e he _
        simp only [TimerQueue.step, hp, hlk] at he
        cases he
        obtain ⟨h1, h2⟩ := release_sim h hy (hnone (by simp [hlk])) rfl
        exact ⟨_, _, _, _, _, by simp only [step, hm, hp, hfu, hy, hcc, hnd, h1], h2⟩
      | some pb =>
        rw [hlk] at hl
        obtain ⟨nd, hnd, hpb⟩ := Option.map_eq_some_iff.1 hl
        cases pb with
        | true =>
          refine ⟨(by intro he; simp only [TimerQueue.step, hp, hlk] at he; cases he), ?_⟩
          intro s' e he _
          simp only [TimerQueue.step, hp, hlk] at he
          cases he
          obtain ⟨h1, h2⟩ := release_sim h hy (hnone (by simp [hlk])) rfl
          exact ⟨_, _, _, _, _, by simp only [step, hm, hp, hfu, hy, hcc, hnd, hpb, if_true, h1], h2⟩
        | false =>
          refine ⟨(by intro he; simp only [TimerQueue.step, hp, hlk] at he; cases he), ?_⟩
          intro s' e he _
          simp only [TimerQueue.step, hp, hlk] at he
          cases he
          exact ⟨c, fut, used, who, ids, by simp only [step, hm, hp, hfu, hy, hcc, hnd, hpb, Bool.false_eq_true, if_false]; rfl, h.congr rfl rfl (pc_set (by simp) (by simp [hp]))⟩
    | _ => exact ⟨(by intro _; simp only [step, hm, hp]), (by intro s' e he; simp only [TimerQueue.step, hp] at he; cases he)⟩
  | del i =>
    cases hp : s.pc i with
    | d1 =>
      obtain ⟨y, hy⟩ := h.addr (i := i) (by simp [hp])
      refine ⟨(by intro he; simp only [TimerQueue.step, hp] at he; cases he), ?_⟩
      intro s' e he _
      simp only [TimerQueue.step, hp] at he
      cases he
      obtain ⟨as, h1, h2⟩ := h.chain
      have hnd := addrs_nodup h.inj h2 hI.nodup
      obtain ⟨c', hdel, hch, hval⟩ := TimerList.delete_spec y c as h1 hnd
      have hmem : ∀ z, (c'.mem z).map (·.val.popped) = (c.mem z).map (·.val.popped) := by
        intro z
        have := congrArg (Option.map (·.popped)) (hval z)
        simpa [Function.comp_def] using this
      have hg : G { s with q := s.q.filter (fun e => e.id ≠ i) } c' fut used who ids := by
        refine ⟨⟨_, hch, filter_map h.inj hy h2⟩, ?_, ?_, ?_, h.inj, h.used, h.live, h.who, h.ids⟩
        · intro e he z hz
          obtain ⟨nd, h3, h4⟩ := h.vals e (List.mem_filter.1 he).1 z hz
          have := hval z
          rw [h3, Option.map_some, h4] at this
          exact Option.map_eq_some_iff.1 this
        · intro k z hz; rw [hmem z]; exact h.lk k z hz
        · intro z hz
          have := hval z
          rw [h.rest z hz] at this
          simpa using this
      obtain ⟨h3, h4⟩ := release_sim hg hy (by intro e he; simpa using (List.mem_filter.1 he).2) rfl
      have hdel' : (mk s c fut used who ids).c.delete y = some c' := hdel
      exact ⟨_, _, _, _, _, by simp only [step, hm, hp, hfu, hy, hdel']; exact congrArg (fun z => some (z, _)) h3, h4⟩
    | _ => exact ⟨(by intro _; simp only [step, hm, hp]), (by intro s' e he; simp only [TimerQueue.step, hp] at he; cases he)⟩
  | start =>
    cases hp : s.h with
    | idle =>
      cases hi : s.irq with
      | true =>
        refine ⟨(by intro he; simp only [TimerQueue.step, hp, hi, if_true] at he; cases he), ?_⟩
        intro s' e he _
        simp only [TimerQueue.step, hp, hi, if_true] at he
        cases he
        exact ⟨c, fut, used, who, ids, by simp only [step, hh, hp, hir, hi, if_true]; rfl, h.congr rfl rfl (fun _ => Iff.rfl)⟩
      | false => exact ⟨(by intro _; simp only [step, hh, hp, hir, hi, Bool.false_eq_true, if_false]), (by intro s' e he; simp only [TimerQueue.step, hp, hi, Bool.false_eq_true, if_false] at he; cases he)⟩
    | _ => exact ⟨(by intro _; simp only [step, hh, hp]), (by intro s' e he; simp only [TimerQueue.step, hp] at he; cases he)⟩
  | hgo =>
    cases hp : s.h with
    | h1 =>
      obtain ⟨as, h1, h2⟩ := h.chain
      cases hq : s.q with
      | nil =>
        rw [hq] at h2
        have has : as = [] := by simpa using h2
        subst has
        have hhd : (mk s c fut used who ids).c.head = none := h1
        refine ⟨(by intro he; simp only [TimerQueue.step, hp, hq] at he; cases he), ?_⟩
        intro s' e he _
        simp only [TimerQueue.step, hp, hq] at he
        cases he
        exact ⟨c, fut, used, who, ids, by simp only [step, hh, hp, hhd]; rfl, h.congr (by simp [hq]) rfl (fun _ => Iff.rfl)⟩
      | cons e0 q =>
        rw [hq] at h2
        cases as with
        | nil => cases h2
        | cons y as =>
          simp only [List.map_cons, List.cons.injEq] at h2
          obtain ⟨h2a, h2b⟩ := h2
          obtain ⟨hhd, nd0, hnd0, hch⟩ := h1
          obtain ⟨nd, hnd, hv⟩ := h.vals e0 (by simp [hq]) y h2a.symm
          rw [hnd0] at hnd; cases hnd
          have hhd' : (mk s c fut used who ids).c.head = some y := hhd
          have hnd0' : (mk s c fut used who ids).c.mem y = some nd0 := hnd0
          have hwho : (mk s c fut used who ids).who y = e0.id := h.who _ _ h2a.symm
          have hna : y ∉ as := by
            have := addrs_nodup (as := y :: as) (q := e0 :: q) h.inj (by simp [h2a, h2b]) (by rw [← hq]; exact hI.nodup)
            exact (List.nodup_cons.1 this).1
          have hnq : ∀ e ∈ q, e.id ≠ e0.id := by
            intro e he hx
            have := hI.nodup
            rw [hq, List.map_cons, List.nodup_cons] at this
            exact this.1 (by rw [← hx]; exact List.mem_map_of_mem he)
          cases hal : atLeast b.w s.now e0.time with
          | true =>
            have hpop : (mk s c fut used who ids).c.popIf (fun v => atLeast b.w (mk s c fut used who ids).now v.time) = some ({ head := nd0.next, mem := upd c.mem y (some { nd0 with val := { waker := e0.wk, time := e0.time, popped := true } }) }, some { waker := e0.wk, time := e0.time, popped := true }) := by
              show c.popIf (fun v => atLeast b.w s.now v.time) = _
              simp only [TL.popIf, hhd, hnd0, hv, hal, if_true]
            refine ⟨(by intro he; simp only [TimerQueue.step, hp, hq, hal, if_true] at he; cases he), ?_⟩
            intro s' e he _
            simp only [TimerQueue.step, hp, hq, hal, if_true] at he
            cases he
            refine ⟨_, fut, used, who, ids, by simp only [step, hh, hp, hhd', hnd0', hpop, hwho]; rfl, ⟨as, chain_upd hch hna, h2b⟩, ?_, ?_, ?_, h.inj, h.used, h.live, h.who, h.ids⟩
            · intro e he z hz
              have hzy : z ≠ y := by rintro rfl; exact hnq e he (h.inj _ _ _ hz h2a.symm)
              simp only [upd_ne _ _ hzy]
              exact h.vals e (by rw [hq]; exact List.mem_cons_of_mem _ he) z hz
            · intro k z hz
              show _ = TimerQueue.set s.lk e0.id (some true) k
              by_cases e : k = e0.id
              · subst e
                have : z = y := by rw [← h2a] at hz; simpa using hz.symm
                subst this
                simp
              · have hzy : z ≠ y := by rintro rfl; exact e (h.inj _ _ _ hz h2a.symm)
                simp only [upd_ne _ _ hzy, TimerQueue.set, e, if_false]
                exact h.lk k z hz
            · intro z hz
              have hzy : z ≠ y := by rintro rfl; exact hz _ h2a.symm
              simp only [upd_ne _ _ hzy]
              exact h.rest z hz
          | false =>
            have hpop : (mk s c fut used who ids).c.popIf (fun v => atLeast b.w (mk s c fut used who ids).now v.time) = some ({ head := some y, mem := upd c.mem y (some { nd0 with val := { waker := e0.wk, time := e0.time, popped := false } }) }, none) := by
              show c.popIf (fun v => atLeast b.w s.now v.time) = _
              simp only [TL.popIf, hhd, hnd0, hv, hal, Bool.false_eq_true, if_false]
            have hsame : upd c.mem y (some { nd0 with val := { waker := e0.wk, time := e0.time, popped := false } }) = c.mem := by
              funext z
              by_cases e : z = y
              · subst e; simp only [upd_self, hnd0, ← hv]
              · rw [upd_ne _ _ e]
            have hlk0 : s.lk e0.id = some false := by
              rw [← h.lk _ _ h2a.symm, hnd0]; simp [hv]
            have hlks : TimerQueue.set s.lk e0.id (some false) = s.lk := by
              funext k; simp only [TimerQueue.set]; split
              · subst k; exact hlk0.symm
              · rfl
            refine ⟨(by intro he; simp only [TimerQueue.step, hp, hq, hal, Bool.false_eq_true, if_false] at he; cases he), ?_⟩
            intro s' e he _
            simp only [TimerQueue.step, hp, hq, hal, Bool.false_eq_true, if_false] at he
            cases he
            refine ⟨c, fut, used, who, ids, ?_, ?_⟩
            · simp only [step, hh, hp, hhd', hnd0', hpop, hsame, hv]
              rw [← hhd]
              rfl
            · exact h.congr hq.symm hlks (fun _ => Iff.rfl)
    | h4 t =>
      cases hal : atLeast b.w s.now t with
      | true =>
        refine ⟨(by intro he; simp only [TimerQueue.step, hp, hal, if_true] at he; cases he), ?_⟩
        intro s' e he _
        simp only [TimerQueue.step, hp, hal, if_true] at he
        cases he
        exact ⟨c, fut, used, who, ids, by simp only [step, hh, hp, hn, hal, if_true]; rfl, h.congr rfl rfl (fun _ => Iff.rfl)⟩
      | false =>
        refine ⟨(by intro he; simp only [TimerQueue.step, hp, hal, Bool.false_eq_true, if_false] at he; cases he), ?_⟩
        intro s' e he _
        simp only [TimerQueue.step, hp, hal, Bool.false_eq_true, if_false] at he
        cases he
        exact ⟨c, fut, used, who, ids, by simp only [step, hh, hp, hn, hal, Bool.false_eq_true, if_false]; rfl, h.congr rfl rfl (fun _ => Iff.rfl)⟩
    | idle => exact ⟨(by intro _; simp only [step, hh, hp]), (by intro s' e he; simp only [TimerQueue.step, hp] at he; cases he)⟩
    | h3b t => exact ⟨(by intro _; simp only [step, hh, hp]), (by intro s' e he; simp only [TimerQueue.step, hp] at he; cases he)⟩
    | _ =>
      refine ⟨(by intro he; simp only [TimerQueue.step, hp] at he; cases he), ?_⟩
      intro s' e he _
      simp only [TimerQueue.step, hp] at he
      cases he
      exact ⟨c, fut, used, who, ids, by simp only [step, hh, hp]; rfl, h.congr rfl rfl (fun _ => Iff.rfl)⟩
  | arm k =>
    cases hp : s.h with
    | h3b t =>
      by_cases hc : s.now < t → (s.now < k ∧ k ≤ t + b.sl) ∨ s.irq = true
      · refine ⟨(by intro he; simp only [TimerQueue.step, hp, if_pos hc] at he; cases he), ?_⟩
        intro s' e he _
        simp only [TimerQueue.step, hp, if_pos hc] at he
        cases he
        exact ⟨c, fut, used, who, ids, by simp only [step, hh, hp, hn, hir, if_pos hc]; rfl, h.congr rfl rfl (fun _ => Iff.rfl)⟩
      · exact ⟨(by intro _; simp only [step, hh, hp, hn, hir, if_neg hc]), (by intro s' e he; simp only [TimerQueue.step, hp, if_neg hc] at he; cases he)⟩
    | _ => exact ⟨(by intro _; simp only [step, hh, hp]), (by intro s' e he; simp only [TimerQueue.step, hp] at he; cases he)⟩

/-- Every step of the pointer machine is a step of the list-level machine, with the same event. -/
theorem step_back {b : Cfg} {x : Nat} {a : Act} {s : TimerQueue.St} {c fut used who ids} {p' : PSt} {e : List Ev} (h : G s c fut used who ids) (hI : Inv b s) (hs : step b (mk s c fut used who ids) a x = some (p', e)) :
    ∃ s' c' fut' used' who' ids', p' = mk s' c' fut' used' who' ids' ∧ TimerQueue.step b s a = some (s', e) ∧ G s' c' fut' used' who' ids' := by
  have hf : ∀ i t, a = .create i t → used x = false := by
    rintro i t rfl
    simp only [step] at hs
    split at hs
    · split at hs
      · assumption
      · cases hs
    · cases hs
  cases ha : TimerQueue.step b s a with
  | none => rw [(step_sim h hI).1 ha] at hs; cases hs
  | some r =>
    obtain ⟨c', fut', used', who', ids', h1, h2⟩ := (step_sim (x := x) h hI).2 r.1 r.2 ha hf
    rw [h1] at hs
    cases hs
    exact ⟨_, _, _, _, _, _, rfl, rfl, h2⟩

theorem g_init (noop : Bool) : G (TimerQueue.init noop) TimerList.empty (fun _ => none) (fun _ => false) (fun _ => 0) [] :=
  ⟨⟨[], rfl, rfl⟩, by simp [TimerQueue.init], by simp, fun _ _ => rfl, by simp, by simp, by simp [TimerQueue.init], by simp, by simp⟩

theorem exec_back {b : Cfg} (hw : 0 < b.w) : ∀ (as : List (Act × Nat)) (s : TimerQueue.St) (c fut used who ids) (p' : PSt) (tr e : List Ev), G s c fut used who ids → TimerQueue.Reach b s tr → exec b (mk s c fut used who ids) as = some (p', e) →
    ∃ s' c' fut' used' who' ids', p' = mk s' c' fut' used' who' ids' ∧ TimerQueue.Reach b s' (tr ++ e) ∧ G s' c' fut' used' who' ids'
  | [], s, c, fut, used, who, ids, p', tr, e, h, hr, he => by cases he; exact ⟨s, c, fut, used, who, ids, rfl, by simpa using hr, h⟩
  | a :: as, s, c, fut, used, who, ids, p', tr, e, h, hr, he => by
    simp only [exec] at he
    split at he
    · cases he
    · rename_i p1 e1 h1
      split at he
      · cases he
      · rename_i p2 e2 h2
        cases he
        obtain ⟨s', c', fut', used', who', ids', rfl, hs, hg⟩ := step_back h (reach_inv hw hr).1 h1
        obtain ⟨s2, c2, fut2, used2, who2, ids2, hp, hr2, hg2⟩ := exec_back hw as s' c' fut' used' who' ids' _ (tr ++ e1) e2 hg (hr.step hs) h2
        exact ⟨s2, c2, fut2, used2, who2, ids2, hp, by simpa using hr2, hg2⟩

theorem reach_back {b : Cfg} (hw : 0 < b.w) {p : PSt} {tr : List Ev} (h : Reach b p tr) : ∃ s c fut used who ids, p = mk s c fut used who ids ∧ TimerQueue.Reach b s tr ∧ G s c fut used who ids := by
  obtain ⟨as, he⟩ := h
  obtain ⟨s, c, fut, used, who, ids, h1, h2, h3⟩ := exec_back hw as (TimerQueue.init b.noop) TimerList.empty (fun _ => none) (fun _ => false) (fun _ => 0) [] p [] tr (g_init _) ⟨[], rfl⟩ he
  exact ⟨s, c, fut, used, who, ids, h1, by simpa using h2, h3⟩

theorem step_fut {b : Cfg} {x : Nat} {a : Act} {p p' : PSt} {e : List Ev} (h : step b p a x = some (p', e)) (j : Nat) :
    p'.fut j = p.fut j ∨ p'.fut j = none ∨ ((∃ t, a = .create j t) ∧ p'.fut j = some x) := by
  have hrel : ∀ (p0 : PSt) i a0, p0.fut = p.fut → (release p0 i a0).fut j = p.fut j ∨ (release p0 i a0).fut j = none := by
    intro p0 i a0 h0
    simp only [release, fset, h0]
    split <;> simp
  cases a with
  | create i t =>
    simp only [step] at h
    split at h
    · split at h
      · cases h
        by_cases e : j = i
        · subst e; right; right; exact ⟨⟨t, rfl⟩, by simp⟩
        · left; simp [fset_ne _ _ e]
      · cases h
    · cases h
  | drop i =>
    simp only [step] at h
    (repeat' split at h) <;> (try cases h) <;> first | exact Or.inl rfl | exact (hrel _ _ _ rfl).elim Or.inl (fun h => Or.inr (Or.inl h))
  | del i =>
    simp only [step] at h
    (repeat' split at h) <;> (try cases h) <;> first | exact Or.inl rfl | (rename_i a1 _ _ c1 _; exact (hrel { p with c := c1 } i a1 rfl).elim Or.inl (fun h => Or.inr (Or.inl h)))
  | _ =>
    simp only [step] at h
    (repeat' split at h) <;> (try cases h) <;> exact Or.inl rfl

theorem exec_fwd {b : Cfg} (hw : 0 < b.w) : ∀ (as : List Act) (s : TimerQueue.St) (c fut used who ids) (s' : TimerQueue.St) (tr e : List Ev), G s c fut used who ids → (∀ i a, fut i = some a → a = i) → TimerQueue.Reach b s tr → TimerQueue.exec b s as = some (s', e) →
    ∃ bs c' fut' used' who' ids', exec b (mk s c fut used who ids) bs = some (mk s' c' fut' used' who' ids', e) ∧ bs.map (·.1) = as
  | [], s, c, fut, used, who, ids, s', tr, e, h, hc, hr, he => by cases he; exact ⟨[], c, fut, used, who, ids, rfl, rfl⟩
  | a :: as, s, c, fut, used, who, ids, s', tr, e, h, hc, hr, he => by
    simp only [TimerQueue.exec] at he
    split at he
    · cases he
    · rename_i p1 e1 h1
      split at he
      · cases he
      · rename_i p2 e2 h2
        cases he
        have hx : ∃ x, (∀ i t, a = .create i t → x = i ∧ used x = false) := by
          cases a with
          | create i t =>
            refine ⟨i, fun i' t' hh => ?_⟩
            cases hh
            refine ⟨rfl, ?_⟩
            cases hu : used i with
            | false => rfl
            | true =>
              obtain ⟨k, hk⟩ := (h.used i).1 hu
              have := hc k i hk; subst this
              have hp : s.pc i = .none := by
                simp only [TimerQueue.step] at h1
                split at h1
                · assumption
                · cases h1
              exact absurd hp ((h.live i).1 (by simp [hk]))
          | _ => exact ⟨0, by intro i t hh; cases hh⟩
        obtain ⟨x, hx⟩ := hx
        obtain ⟨c', fut', used', who', ids', hs, hg⟩ := (step_sim (x := x) h (reach_inv hw hr).1).2 _ _ h1 fun i t hh => (hx i t hh).2
        have hc' : ∀ i a, fut' i = some a → a = i := by
          intro i y hy
          rcases step_fut hs i with h3 | h3 | ⟨⟨t, h3⟩, h4⟩
          · exact hc i y (by rw [← hy]; exact h3.symm)
          · have : fut' i = none := h3; rw [hy] at this; cases this
          · have : fut' i = some x := h4
            rw [hy] at this
            have := (hx i t h3).1
            grind
        obtain ⟨bs, c2, fut2, used2, who2, ids2, hb, hm⟩ := exec_fwd hw as p1 c' fut' used' who' ids' _ (tr ++ e1) e2 hg hc' (hr.step h1) h2
        exact ⟨(a, x) :: bs, c2, fut2, used2, who2, ids2, by simp [exec, hs, hb], by simp [hm]⟩

/-! ## Specification and theorems -/

/-- The two machines agree on everything a user or the hardware can see. -/
structure Agree (p : PSt) (s : TimerQueue.St) : Prop where
  now : p.now = s.now
  inst : p.inst = s.inst
  pc : p.pc = s.pc
  h : p.h = s.h
  en : p.en = s.en
  flag : p.flag = s.flag
  pend : p.pend = s.pend
  other : p.other = s.other
  cmp : p.cmp = s.cmp
  req : p.req = s.req

/-- **C81** No access to memory that is not a live link, and no endless search loop, whatever addresses the delays have and however the memory of dropped delays is reused. -/
theorem C81_no_fault {b : Cfg} (hw : 0 < b.w) {p : PSt} {tr : List Ev} (h : Reach b p tr) : p.bad = false := by
  obtain ⟨s, c, fut, used, who, ids, rfl, -, -⟩ := reach_back hw h
  rfl

/-- **C81** Every history of the timer queue on the intrusive list is a history of the list-level timer queue (`Verif.TimerQueue`): C27–C30 hold of it. -/
theorem C81_refines {b : Cfg} (hw : 0 < b.w) {p : PSt} {tr : List Ev} (h : Reach b p tr) : ∃ s, TimerQueue.Reach b s tr ∧ Agree p s := by
  obtain ⟨s, c, fut, used, who, ids, rfl, hr, -⟩ := reach_back hw h
  exact ⟨s, hr, rfl, rfl, rfl, rfl, rfl, rfl, rfl, rfl, rfl, rfl⟩

/-- **C81** And conversely: the intrusive list never blocks a history. -/
theorem C81_complete {b : Cfg} (hw : 0 < b.w) {s : TimerQueue.St} {tr : List Ev} (h : TimerQueue.Reach b s tr) : ∃ p, Reach b p tr ∧ Agree p s := by
  obtain ⟨as, he⟩ := h
  obtain ⟨bs, c, fut, used, who, ids, hb, -⟩ := exec_fwd hw as (TimerQueue.init b.noop) TimerList.empty (fun _ => none) (fun _ => false) (fun _ => 0) [] s [] tr (g_init _) (by simp) ⟨[], rfl⟩ he
  exact ⟨_, ⟨bs, hb⟩, rfl, rfl, rfl, rfl, rfl, rfl, rfl, rfl, rfl, rfl⟩

/-- **C81** The queue is a consistent linked list, its nodes are exactly the not yet popped links of live delays, each with the instant of its delay, and in the order of the instants; there is no link outside the memory of a live delay. -/
theorem C81_linked {b : Cfg} (hw : 0 < b.w) {p : PSt} {tr : List Ev} (h : Reach b p tr) :
    ∃ as, Linked p.c as ∧
      (∀ a, a ∈ as ↔ ∃ nd, p.c.mem a = some nd ∧ nd.val.popped = false) ∧
      (∀ a nd, p.c.mem a = some nd → ∃ i, p.fut i = some a ∧ p.pc i ≠ .none ∧ (nd.val.popped = false → nd.val.time = p.inst i)) ∧
      (as.Pairwise fun x y => ∀ nx ny, p.c.mem x = some nx → p.c.mem y = some ny → nx.val.time ≤ ny.val.time) ∧
      (∀ i j a, p.fut i = some a → p.fut j = some a → i = j) := by
  obtain ⟨s, c, fut, used, who, ids, rfl, hr, hg⟩ := reach_back hw h
  have hI := (reach_inv hw hr).1
  obtain ⟨as, h1, h2⟩ := hg.chain
  have hnd := addrs_nodup hg.inj h2 hI.nodup
  obtain ⟨h3, h4⟩ := chain_get as _ h1
  have hown : ∀ a nd, c.mem a = some nd → ∃ i, fut i = some a ∧ s.lk i = some nd.val.popped := by
    intro a nd ha
    by_cases hx : ∃ i, fut i = some a
    · obtain ⟨i, hi⟩ := hx
      refine ⟨i, hi, ?_⟩
      rw [← hg.lk i a hi, ha]; rfl
    · have := hg.rest a (by simpa using hx)
      rw [ha] at this; cases this
  refine ⟨as, ⟨h3, hnd, h4⟩, ?_, ?_, ?_, hg.inj⟩
  · intro a
    constructor
    · intro ha
      have : some a ∈ s.q.map (fun e => fut e.id) := by rw [← h2]; exact List.mem_map_of_mem ha
      obtain ⟨e, he, hx⟩ := List.mem_map.1 this
      obtain ⟨nd, h5, h6⟩ := hg.vals e he a hx
      exact ⟨nd, h5, by rw [h6]⟩
    · rintro ⟨nd, h5, h6⟩
      obtain ⟨i, hi, hl⟩ := hown a nd h5
      rw [h6] at hl
      exact (addrs_mem hg.inj h2 hi).2 ((waits_iff hI ((hg.live i).1 (by simp [hi]))).2 hl)
  · intro a nd ha
    obtain ⟨i, hi, hl⟩ := hown a nd ha
    have hpc := (hg.live i).1 (by simp [hi])
    refine ⟨i, hi, hpc, fun hp => ?_⟩
    rw [hp] at hl
    obtain ⟨e, he, rfl⟩ := (waits_iff hI hpc).2 hl
    obtain ⟨nd', h5, h6⟩ := hg.vals e he a hi
    rw [show c.mem a = some nd from ha] at h5; cases h5
    rw [h6]; exact hI.time e he
  · have key : ∀ (q : List E) (as : List Nat), as.map some = q.map (fun e => fut e.id) → (∀ e ∈ q, e ∈ s.q) → q.Pairwise (fun x y => x.time ≤ y.time) →
        as.Pairwise fun x y => ∀ nx ny, c.mem x = some nx → c.mem y = some ny → nx.val.time ≤ ny.val.time := by
      intro q
      induction q with
      | nil => intro as h _ _; have : as = [] := by simpa using h
               subst this; exact List.Pairwise.nil
      | cons e q ih =>
        intro as h hs hp
        cases as with
        | nil => cases h
        | cons a as =>
          simp only [List.map_cons, List.cons.injEq] at h
          rw [List.pairwise_cons] at hp ⊢
          refine ⟨?_, ih as h.2 (fun x hx => hs x (List.mem_cons_of_mem _ hx)) hp.2⟩
          intro y hy nx ny hx1 hy1
          have : some y ∈ q.map (fun e => fut e.id) := by rw [← h.2]; exact List.mem_map_of_mem hy
          obtain ⟨e', he', hx'⟩ := List.mem_map.1 this
          obtain ⟨n1, h5, h6⟩ := hg.vals e (hs e (by simp)) a h.1.symm
          obtain ⟨n2, h7, h8⟩ := hg.vals e' (hs e' (List.mem_cons_of_mem _ he')) y hx'
          rw [hx1] at h5; rw [hy1] at h7; cases h5; cases h7
          rw [h6, h8]; exact hp.1 e' he'
    exact key s.q as h2 (fun _ h => h) hI.sorted

/-! Concrete, non-trivial case (32-bit ticks): delay 1 at address 50 for instant 5 and delay 2 at address 60 for instant 3 wait; delay 2 is dropped and its memory reused by delay 3 for instant 2, which becomes the head; at time 2 the handler pops
delay 3 and finds delay 1 next. -/
def demo : List (Act × Nat) :=
  [(.create 1 5, 50), (.poll 1 11, 0), (.ins 1, 0), (.pend 1, 0), (.create 2 3, 60), (.poll 2 12, 0), (.ins 2, 0), (.pend 2, 0), (.drop 2, 0), (.del 2, 0),
   (.create 3 2, 60), (.poll 3 13, 0), (.ins 3, 0), (.pend 3, 0), (.tick false false false, 0), (.tick false false false, 0), (.start, 0), (.hgo, 0), (.hgo, 0), (.hgo, 0), (.hgo, 0), (.hgo, 0)]

example : (exec ⟨32, true, 0⟩ (init true) demo).map (fun r => (r.1.bad, r.1.c.head, r.1.h, r.1.fut 3, r.2)) =
    some (false, some 50, .h3 5, some 60, [.inserted 1, .inserted 2, .dropped 2, .inserted 3, .popped { id := 3, wk := 13, time := 2 } 2, .woke 13]) := by decide +kernel

/-- the address of a live delay cannot be used by another one -/
example : (exec ⟨32, true, 0⟩ (init true) (demo ++ [(.create 4 9, 60)])).isNone = true := by decide +kernel
example : (exec ⟨32, true, 0⟩ (init true) (demo ++ [(.drop 3, 0), (.create 4 9, 60)])).isSome = true := by decide +kernel

end Verif.Intrusive.Tim
