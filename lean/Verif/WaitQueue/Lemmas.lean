import Verif.WaitQueue.Spec

namespace Verif.WaitQueue

variable {α : Type}

def nextOf : List Nat → Option Nat → Option Nat
  | [], n => n
  | a :: _, _ => some a

def lastOf : Option Nat → List Nat → Option Nat
  | p, [] => p
  | _, a :: q => lastOf (some a) q

/-- Doubly linked segment: `p` is the predecessor of the first node, `n` the successor of the last. -/
def Seg (mem : Nat → Option (Link α)) : Option Nat → List Nat → Option Nat → Prop
  | _, [], _ => True
  | p, a :: q, n =>
    (∃ v, mem a = some { val := v, next := nextOf q n, prev := p, isPopped := false }) ∧ Seg mem (some a) q n

structure Rep (c : WQ α) (s : Spec α) : Prop where
  head : c.head = nextOf s.q none
  tail : c.tail = lastOf none s.q
  nodup : s.q.Nodup
  seg : Seg c.mem none s.q none
  links : ∀ a, (c.mem a).map (fun l => (l.val, l.isPopped)) = s.links a
  loose : ∀ a l, c.mem a = some l → a ∉ s.q → l.isPopped = false → l.next = none ∧ l.prev = none

@[simp] theorem upd_same (mem : Nat → Option (Link α)) (a : Nat) (l) : upd mem a l a = l := by simp [upd]
theorem upd_ne (mem : Nat → Option (Link α)) {a b : Nat} (l) (h : b ≠ a) : upd mem a l b = mem b := by
  simp [upd, h]

theorem Seg.congr {mem mem' : Nat → Option (Link α)} {q : List Nat} (h : ∀ a ∈ q, mem' a = mem a) :
    ∀ {p n}, Seg mem p q n → Seg mem' p q n := by
  induction q with
  | nil => intro p n _; trivial
  | cons a q ih =>
    intro p n ⟨⟨v, hv⟩, hs⟩
    exact ⟨⟨v, by rw [h a List.mem_cons_self, hv]⟩, ih (fun b hb => h b (List.mem_cons_of_mem _ hb)) hs⟩

theorem Seg.upd_notMem {mem : Nat → Option (Link α)} {q : List Nat} {a : Nat} {l} (h : a ∉ q) {p n}
    (hs : Seg mem p q n) : Seg (upd mem a l) p q n :=
  hs.congr fun b hb => upd_ne _ _ (by rintro rfl; exact h hb)

@[simp] theorem nextOf_nil (n) : nextOf [] n = n := rfl
@[simp] theorem nextOf_cons (a : Nat) (q) (n) : nextOf (a :: q) n = some a := rfl
@[simp] theorem lastOf_nil (p) : lastOf p [] = p := rfl

theorem nextOf_append (q₁ q₂ : List Nat) (n) : nextOf (q₁ ++ q₂) n = nextOf q₁ (nextOf q₂ n) := by
  cases q₁ <;> rfl

theorem lastOf_append (p) (q₁ q₂ : List Nat) : lastOf p (q₁ ++ q₂) = lastOf (lastOf p q₁) q₂ := by
  induction q₁ generalizing p with
  | nil => rfl
  | cons a q ih => exact ih _

theorem seg_append {mem : Nat → Option (Link α)} {q₁ q₂ : List Nat} : ∀ {p n},
    Seg mem p (q₁ ++ q₂) n ↔ Seg mem p q₁ (nextOf q₂ n) ∧ Seg mem (lastOf p q₁) q₂ n := by
  induction q₁ with
  | nil => intro p n; simp [Seg, lastOf]
  | cons a q ih =>
    intro p n
    simp only [List.cons_append, Seg, ih, nextOf_append, lastOf, and_assoc]

theorem Seg.get {mem : Nat → Option (Link α)} {q : List Nat} {a : Nat} : ∀ {p n}, Seg mem p q n → a ∈ q →
    ∃ l, mem a = some l ∧ l.isPopped = false := by
  induction q with
  | nil => intro p n _ h; cases h
  | cons b q ih =>
    intro p n ⟨⟨v, hv⟩, hs⟩ h
    rcases List.mem_cons.1 h with rfl | h
    · exact ⟨_, hv, rfl⟩
    · exact ih hs h

/-- changing the successor of the last node -/
theorem seg_setLast {mem : Nat → Option (Link α)} {q : List Nat} {x : Nat} {p n n'} {v}
    (hnd : (q ++ [x]).Nodup)
    (h : Seg mem p (q ++ [x]) n) :
    Seg (upd mem x (some { val := v, next := n', prev := lastOf p q, isPopped := false })) p (q ++ [x]) n' := by
  rw [seg_append] at h ⊢
  have hxq : x ∉ q := by
    rw [List.nodup_append] at hnd
    intro hh; exact hnd.2.2 x hh x (by simp) rfl
  refine ⟨(h.1).upd_notMem hxq, ⟨⟨v, by simp [nextOf]⟩, trivial⟩⟩

/-- changing the predecessor of the first node -/
theorem seg_setFirst {mem : Nat → Option (Link α)} {q : List Nat} {y : Nat} {p p' n} {v}
    (hnd : (y :: q).Nodup)
    (h : Seg mem p (y :: q) n) :
    Seg (upd mem y (some { val := v, next := nextOf q n, prev := p', isPopped := false })) p' (y :: q) n := by
  have hy : y ∉ q := (List.nodup_cons.1 hnd).1
  exact ⟨⟨v, by simp⟩, h.2.upd_notMem hy⟩

/-- splitting at a member -/
theorem exists_split {q : List Nat} {a : Nat} (h : a ∈ q) (hnd : q.Nodup) :
    ∃ q₁ q₂, q = q₁ ++ a :: q₂ ∧ a ∉ q₁ ∧ a ∉ q₂ ∧ q.erase a = q₁ ++ q₂ := by
  obtain ⟨q₁, q₂, rfl⟩ := List.append_of_mem h
  rw [List.nodup_append] at hnd
  have h1 : a ∉ q₁ := fun hh => hnd.2.2 a hh a List.mem_cons_self rfl
  have h2 : a ∉ q₂ := (List.nodup_cons.1 hnd.2.1).1
  refine ⟨q₁, q₂, rfl, h1, h2, ?_⟩
  rw [List.erase_append_right _ h1, List.erase_cons_head]

theorem lastOf_snoc (p) (q : List Nat) (x : Nat) : lastOf p (q ++ [x]) = some x := by
  rw [lastOf_append]; rfl

theorem nextOf_none_iff (q : List Nat) : nextOf q none = none ↔ q = [] := by
  cases q <;> simp [nextOf]

theorem lastOf_none_iff (q : List Nat) : lastOf none q = none ↔ q = [] := by
  rcases List.eq_nil_or_concat q with rfl | ⟨l, x, rfl⟩
  · simp [lastOf]
  · simp [lastOf_snoc]

theorem rep_empty : Rep (empty : WQ α) Spec.empty :=
  ⟨rfl, rfl, List.nodup_nil, trivial, fun _ => rfl, fun _ _ h => by simp [empty] at h⟩

/-- links clause for an update that only touches `next`/`prev` -/
theorem links_upd {mem : Nat → Option (Link α)} {f : Nat → Option (α × Bool)} {a : Nat} {l l' : Link α}
    (h : ∀ b, (mem b).map (fun l => (l.val, l.isPopped)) = f b) (hl : mem a = some l)
    (hv : l'.val = l.val) (hp : l'.isPopped = l.isPopped) :
    ∀ b, (upd mem a (some l') b).map (fun l => (l.val, l.isPopped)) = f b := by
  intro b
  by_cases hb : b = a
  · subst hb; rw [upd_same, ← h b, hl]; simp [hv, hp]
  · rw [upd_ne _ _ hb, h b]

theorem rep_newLink {c : WQ α} {s : Spec α} (h : Rep c s) {a : Nat} (ha : a ∉ s.q) (v : α) :
    Rep (c.newLink a v) { s with links := s.set a (some (v, false)) } := by
  obtain ⟨h1, h2, h3, h4, h5, h6⟩ := h
  refine ⟨h1, h2, h3, h4.upd_notMem ha, ?_, ?_⟩
  · intro b
    by_cases hb : b = a
    · subst hb; simp [WQ.newLink, Spec.set]
    · simp [WQ.newLink, Spec.set, upd_ne _ _ hb, hb, h5]
  · intro b l hl hb hp
    by_cases hba : b = a
    · subst hba; simp [WQ.newLink] at hl; subst hl; simp
    · simp only [WQ.newLink, upd_ne _ _ hba] at hl; exact h6 b l hl hb hp

theorem rep_free {c : WQ α} {s : Spec α} (h : Rep c s) {a : Nat} (ha : a ∉ s.q) :
    Rep (c.free a) { s with links := s.set a none } := by
  obtain ⟨h1, h2, h3, h4, h5, h6⟩ := h
  refine ⟨h1, h2, h3, h4.upd_notMem ha, ?_, ?_⟩
  · intro b
    by_cases hb : b = a
    · subst hb; simp [WQ.free, Spec.set]
    · simp [WQ.free, Spec.set, upd_ne _ _ hb, hb, h5]
  · intro b l hl hb hp
    by_cases hba : b = a
    · subst hba; simp [WQ.free] at hl
    · simp only [WQ.free, upd_ne _ _ hba] at hl; exact h6 b l hl hb hp

theorem rep_push {c : WQ α} {s : Spec α} (h : Rep c s) {a : Nat} {v : α}
    (hl : s.links a = some (v, false)) (ha : a ∉ s.q) :
    ∃ c', c.push a = some c' ∧ Rep c' { s with q := s.q ++ [a] } := by
  obtain ⟨h1, h2, h3, h4, h5, h6⟩ := h
  obtain ⟨l, hml, hlv⟩ : ∃ l, c.mem a = some l ∧ (l.val, l.isPopped) = (v, false) := by
    have := h5 a; rw [hl] at this; exact Option.map_eq_some_iff.1 this
  have hpop : l.isPopped = false := by simpa using congrArg Prod.snd hlv
  have hval : l.val = v := by simpa using congrArg Prod.fst hlv
  obtain ⟨hn, hp⟩ := h6 a l hml ha hpop
  have hl' : l = { val := v, next := none, prev := none, isPopped := false } := by
    cases l; simp_all
  subst hl'
  rcases List.eq_nil_or_concat s.q with hq | ⟨q, t, hq⟩
  · -- empty queue
    rw [hq] at h2
    refine ⟨{ c with tail := some a, head := some a }, by simp [WQ.push, h2, lastOf], ?_⟩
    rw [hq]
    refine ⟨rfl, rfl, by simp, ⟨⟨v, hml⟩, trivial⟩, h5, ?_⟩
    intro b l hb hbq hbp
    exact h6 b l hb (by simp [hq]) hbp
  · -- non-empty: last is t
    rw [List.concat_eq_append] at hq
    rw [hq] at h2 h3 h4 ha ⊢
    rw [lastOf_snoc] at h2
    have hta : t ≠ a := by rintro rfl; exact ha (by simp)
    obtain ⟨h41, ⟨vt, hmt⟩, -⟩ := seg_append.1 h4
    have hmt' : (upd c.mem a (some { val := v, next := none, prev := some t, isPopped := false })) t
        = some { val := vt, next := none, prev := lastOf none q, isPopped := false } := by
      rw [upd_ne _ _ hta, hmt]; rfl
    refine ⟨_, by
      simp only [WQ.push, h2, WQ.setPrev, hml, WQ.setNext, hmt', Option.bind_eq_bind, Option.bind_some]; rfl, ?_⟩
    have hseg0 : Seg (upd c.mem a (some { val := v, next := none, prev := some t, isPopped := false })) none (q ++ [t]) none :=
      h4.upd_notMem ha
    have hseg1 := seg_setLast (n' := some a) (v := vt) h3 hseg0
    refine ⟨?_, ?_, ?_, ?_, ?_, ?_⟩
    · rw [h1, hq, nextOf_append, nextOf_append]
      cases q <;> rfl
    · show some a = _
      rw [lastOf_snoc]
    · rw [List.nodup_append]
      exact ⟨h3, by simp, by intro x hx y hy; simp at hy; subst hy; rintro rfl; exact ha hx⟩
    · rw [seg_append]
      refine ⟨hseg1, ⟨⟨v, ?_⟩, trivial⟩⟩
      simp [upd_ne _ _ hta.symm, lastOf_snoc, nextOf]
    · exact links_upd (links_upd h5 hml rfl rfl) hmt' rfl rfl
    · intro b l hb hbq hbp
      have hb1 : b ≠ a := by rintro rfl; exact hbq (by simp)
      have hb2 : b ≠ t := by rintro rfl; exact hbq (by simp)
      simp only [upd_ne _ _ hb1, upd_ne _ _ hb2] at hb
      exact h6 b l hb (by rw [hq]; intro hh; exact hbq (List.mem_append_left _ hh)) hbp

theorem rep_pop_cons {c : WQ α} {s : Spec α} (h : Rep c s) {a : Nat} {q : List Nat} (hq : s.q = a :: q) :
    ∃ c' v, s.links a = some (v, false) ∧ c.pop = some (c', some v) ∧
      Rep c' { q := q, links := s.set a (some (v, true)) } := by
  obtain ⟨h1, h2, h3, h4, h5, h6⟩ := h
  rw [hq] at h1 h2 h3 h4
  obtain ⟨⟨v, hma⟩, hseg⟩ := h4
  have haq : a ∉ q := (List.nodup_cons.1 h3).1
  have hlink : s.links a = some (v, false) := by rw [← h5 a, hma]; rfl
  cases q with
  | nil =>
    have h2' : c.tail = some a := h2
    have h1' : c.head = some a := h1
    refine ⟨_, v, hlink, by
      simp [WQ.pop, h1', hma, h2', WQ.setNext, WQ.setPrev, WQ.setPopped]; rfl, ?_⟩
    refine ⟨rfl, rfl, by simp, trivial, ?_, ?_⟩
    · intro b
      by_cases hb : b = a
      · subst hb; simp [Spec.set]
      · simp [upd_ne _ _ hb, Spec.set, hb, h5]
    · intro b l hb _ hp
      by_cases hba : b = a
      · subst hba; simp at hb; subst hb; simp at hp
      · simp only [upd_ne _ _ hba] at hb
        exact h6 b l hb (by rw [hq]; simpa using hba) hp
  | cons n q =>
    have h1' : c.head = some a := h1
    have hna : n ≠ a := by rintro rfl; exact haq List.mem_cons_self
    have htail : c.tail ≠ some a := by
      rw [h2]
      rcases List.eq_nil_or_concat q with rfl | ⟨q', x, rfl⟩
      · simp [lastOf, hna]
      · rw [List.concat_eq_append]
        have : lastOf none (a :: n :: (q' ++ [x])) = some x := by
          show lastOf none ((a :: n :: q') ++ [x]) = _
          rw [lastOf_snoc]
        rw [this]
        intro hh
        apply haq
        cases hh
        simp
    obtain ⟨⟨vn, hmn⟩, hseg'⟩ := hseg
    have hmn0 : c.mem n = some { val := vn, next := nextOf q none, prev := some a, isPopped := false } := hmn
    refine ⟨_, v, hlink, by
      simp [WQ.pop, h1', hma, htail, WQ.setNext, WQ.setPrev, WQ.setPopped, hmn0, upd_ne _ _ hna.symm]; rfl, ?_⟩
    have hnd' : (n :: q).Nodup := (List.nodup_cons.1 h3).2
    refine ⟨rfl, ?_, hnd', ?_, ?_, ?_⟩
    · show c.tail = _
      rw [h2]; rfl
    · show Seg _ _ _ _
      apply Seg.upd_notMem haq
      apply Seg.upd_notMem haq
      apply Seg.upd_notMem haq
      exact seg_setFirst (p := some a) hnd' ⟨⟨vn, hmn⟩, hseg'⟩
    · intro b
      by_cases hb : b = a
      · subst hb; simp [Spec.set]
      · by_cases hb2 : b = n
        · subst hb2; simp [Spec.set, upd_ne _ _ hb, hb]; rw [← h5 b, hmn0]; rfl
        · simp [upd_ne _ _ hb, upd_ne _ _ hb2, Spec.set, hb, h5]
    · intro b l hb hbq hp
      have hb2 : b ≠ n := by rintro rfl; exact hbq List.mem_cons_self
      by_cases hba : b = a
      · subst hba; simp at hb; subst hb; simp at hp
      · simp only [upd_ne _ _ hba, upd_ne _ _ hb2] at hb
        exact h6 b l hb (by
          rw [hq]; intro hh
          rcases List.mem_cons.1 hh with h | h
          · exact hba h
          · exact hbq h) hp

theorem rep_remove {c : WQ α} {s : Spec α} (h : Rep c s) {a : Nat} {v : α} {b : Bool}
    (hl : s.links a = some (v, b)) :
    ∃ c', c.remove a = some c' ∧ Rep c' { q := s.q.erase a, links := s.set a (some (v, true)) } := by
  have hrep := h
  obtain ⟨h1, h2, h3, h4, h5, h6⟩ := h
  obtain ⟨l, hml, hlv⟩ : ∃ l, c.mem a = some l ∧ (l.val, l.isPopped) = (v, b) := by
    have := h5 a; rw [hl] at this; exact Option.map_eq_some_iff.1 this
  have hpop : l.isPopped = b := by simpa using congrArg Prod.snd hlv
  have hval : l.val = v := by simpa using congrArg Prod.fst hlv
  cases b with
  | true =>
    refine ⟨c, by simp [WQ.remove, hml, hpop], ?_⟩
    have hnot : a ∉ s.q := by
      intro hh; obtain ⟨l', hl', hp'⟩ := h4.get hh
      rw [hml] at hl'; cases hl'; simp_all
    rw [List.erase_of_not_mem hnot]
    have : s.set a (some (v, true)) = s.links := by
      funext x; by_cases hx : x = a <;> simp [Spec.set, hx, hl]
    rw [this]; exact hrep
  | false =>
    by_cases hmem : a ∈ s.q
    · obtain ⟨q₁, q₂, hq, hn1, hn2, he⟩ := exists_split hmem h3
      rw [he]
      rw [hq] at h1 h2 h3 h4
      obtain ⟨hs1, ⟨va, hma⟩, hs2⟩ := seg_append.1 h4
      have hva : va = v := by rw [hml] at hma; cases hma; simpa using hval
      subst hva
      rw [hml] at hma; cases hma
      have hnd := List.nodup_append.1 h3
      have hnd2 := (List.nodup_cons.1 hnd.2.1).2
      have hdisj : ∀ x ∈ q₁, ∀ y ∈ q₂, x ≠ y := fun x hx y hy =>
        hnd.2.2 x hx y (List.mem_cons_of_mem _ hy)
      have hndE : (q₁ ++ q₂).Nodup := List.nodup_append.2 ⟨hnd.1, hnd2, hdisj⟩
      have hlinks : ∀ (mem' : Nat → Option (Link α)),
          (∀ x, x ≠ a → (mem' x).map (fun l => (l.val, l.isPopped)) = (c.mem x).map (fun l => (l.val, l.isPopped))) →
          (mem' a).map (fun l => (l.val, l.isPopped)) = some (va, true) →
          ∀ x, (mem' x).map (fun l => (l.val, l.isPopped)) = s.set a (some (va, true)) x := by
        intro mem' hx ha x
        by_cases hxa : x = a
        · subst hxa; simp [Spec.set, ha]
        · rw [hx x hxa, h5 x]; simp [Spec.set, hxa]
      have hmem1 : ∀ x, x ∉ q₁ ++ q₂ → x ≠ a → x ∉ s.q := by
        intro x hx hxa hh; rw [hq] at hh
        simp only [List.mem_append, List.mem_cons] at hh hx
        rcases hh with h | h | h
        · exact hx (Or.inl h)
        · exact hxa h
        · exact hx (Or.inr h)
      rcases List.eq_nil_or_concat q₁ with rfl | ⟨q₁', p, hq1⟩
      · cases q₂ with
        | nil =>
          -- alone
          have hh : c.head = some a := h1
          refine ⟨_, by
            simp [WQ.remove, hml, WQ.setPopped, hh]; rfl, ?_⟩
          refine ⟨rfl, rfl, by simp, trivial, ?_, ?_⟩
          · apply hlinks
            · intro x hx; simp [upd_ne _ _ hx]
            · simp
          · intro x l hx hxq hp
            by_cases hxa : x = a
            · subst hxa; simp at hx; subst hx; simp at hp
            · simp only [upd_ne _ _ hxa] at hx
              exact h6 x l hx (hmem1 x hxq hxa) hp
        | cons n q₂ =>
          -- first
          have hna : n ≠ a := by rintro rfl; exact hn2 List.mem_cons_self
          obtain ⟨⟨vn, hmn⟩, hs3⟩ := hs2
          have hmn0 : c.mem n = some { val := vn, next := nextOf q₂ none, prev := some a, isPopped := false } := hmn
          refine ⟨_, by
            simp [WQ.remove, hml, WQ.setPopped, WQ.setPrev, upd_ne _ _ hna, hmn0]; rfl, ?_⟩
          refine ⟨rfl, ?_, hndE, ?_, ?_, ?_⟩
          · show c.tail = _
            rw [h2]; rfl
          · refine seg_setFirst (p := some a) hnd2 ?_
            exact Seg.upd_notMem hn2 ⟨⟨vn, hmn⟩, hs3⟩
          · apply hlinks
            · intro x hx
              by_cases hxn : x = n
              · subst hxn; simp [hmn0]
              · simp [upd_ne _ _ hx, upd_ne _ _ hxn]
            · simp [upd_ne _ _ hna.symm]
          · intro x l hx hxq hp
            have hxn : x ≠ n := by rintro rfl; exact hxq (by simp)
            by_cases hxa : x = a
            · subst hxa; simp [upd_ne _ _ hxn] at hx; subst hx; simp at hp
            · simp only [upd_ne _ _ hxa, upd_ne _ _ hxn] at hx
              exact h6 x l hx (hmem1 x hxq hxa) hp
      · rw [List.concat_eq_append] at hq1
        subst hq1
        have hpa : p ≠ a := by rintro rfl; exact hn1 (by simp)
        obtain ⟨hs0, ⟨vp, hmp⟩, -⟩ := seg_append.1 hs1
        have hlast : lastOf none (q₁' ++ [p]) = some p := lastOf_snoc _ _ _
        have hmp0 : c.mem p = some { val := vp, next := some a, prev := lastOf none q₁', isPopped := false } := hmp
        cases q₂ with
        | nil =>
          -- last
          refine ⟨_, by
            simp [WQ.remove, hml, WQ.setPopped, WQ.setNext, hlast, upd_ne _ _ hpa, hmp0]; rfl, ?_⟩
          simp only [List.append_nil] at hndE hmem1 ⊢
          refine ⟨?_, hlast.symm, hndE, ?_, ?_, ?_⟩
          · show c.head = _
            rw [h1]; simp only [nextOf_append]; cases q₁' <;> rfl
          · refine seg_setLast (n := some a) (n' := none) hndE ?_
            exact Seg.upd_notMem hn1 hs1
          · apply hlinks
            · intro x hx
              by_cases hxp : x = p
              · subst hxp; simp [hmp0]
              · simp [upd_ne _ _ hx, upd_ne _ _ hxp]
            · simp [upd_ne _ _ hpa.symm]
          · intro x l hx hxq hp
            have hxp : x ≠ p := by rintro rfl; exact hxq (by simp)
            by_cases hxa : x = a
            · subst hxa; simp [upd_ne _ _ hxp] at hx; subst hx; simp at hp
            · simp only [upd_ne _ _ hxa, upd_ne _ _ hxp] at hx
              exact h6 x l hx (hmem1 x hxq hxa) hp
        | cons n q₂ =>
          have hna : n ≠ a := by rintro rfl; exact hn2 List.mem_cons_self
          have hpn : p ≠ n := hdisj p (by simp) n List.mem_cons_self
          obtain ⟨⟨vn, hmn⟩, hs3⟩ := hs2
          have hmn0 : c.mem n = some { val := vn, next := nextOf q₂ none, prev := some a, isPopped := false } := hmn
          refine ⟨_, by
            simp [WQ.remove, hml, WQ.setPopped, WQ.setNext, WQ.setPrev, hlast, upd_ne _ _ hpa,
              upd_ne _ _ hna, upd_ne _ _ hpn.symm, hmp0, hmn0]; rfl, ?_⟩
          have hpq : p ∉ n :: q₂ := fun hh => hdisj p (by simp) p hh rfl
          have hnq : n ∉ q₁' ++ [p] := fun hh => hdisj n hh n List.mem_cons_self rfl
          refine ⟨?_, ?_, hndE, ?_, ?_, ?_⟩
          · show c.head = _
            rw [h1]; simp only [nextOf_append]; cases q₁' <;> rfl
          · show c.tail = _
            rw [h2]; simp only [lastOf_append]; rfl
          · rw [seg_append]
            constructor
            · apply Seg.upd_notMem hnq
              refine seg_setLast (n := some a) (n' := some n) (List.nodup_append.1 h3).1 ?_
              exact Seg.upd_notMem hn1 hs1
            · rw [hlast]
              refine seg_setFirst (p := some a) hnd2 ?_
              apply Seg.upd_notMem hpq
              exact Seg.upd_notMem hn2 ⟨⟨vn, hmn⟩, hs3⟩
          · apply hlinks
            · intro x hx
              by_cases hxp : x = p
              · subst hxp; simp [upd_ne _ _ hpn, hmp0]
              · by_cases hxn : x = n
                · subst hxn; simp [hmn0]
                · simp [upd_ne _ _ hx, upd_ne _ _ hxp, upd_ne _ _ hxn]
            · simp [upd_ne _ _ hpa.symm, upd_ne _ _ hna.symm]
          · intro x l hx hxq hp
            have hxp : x ≠ p := by rintro rfl; exact hxq (by simp)
            have hxn : x ≠ n := by rintro rfl; exact hxq (by simp)
            by_cases hxa : x = a
            · subst hxa; simp [upd_ne _ _ hxp, upd_ne _ _ hxn] at hx; subst hx; simp at hp
            · simp only [upd_ne _ _ hxa, upd_ne _ _ hxp, upd_ne _ _ hxn] at hx
              exact h6 x l hx (hmem1 x hxq hxa) hp
    · -- not in the list
      obtain ⟨hn, hp⟩ := h6 a l hml hmem hpop
      have hhead : c.head ≠ some a := by
        rw [h1]; intro hh
        cases hq : s.q with
        | nil => rw [hq] at hh; cases hh
        | cons x q => rw [hq] at hh hmem; cases hh; exact hmem List.mem_cons_self
      refine ⟨_, by simp [WQ.remove, hml, hpop, WQ.setPopped, hn, hp, hhead]; rfl, ?_⟩
      rw [List.erase_of_not_mem hmem]
      refine ⟨h1, h2, h3, h4.upd_notMem hmem, ?_, ?_⟩
      · intro x
        by_cases hxa : x = a
        · subst hxa; simp [Spec.set, hval]
        · simp [upd_ne _ _ hxa, Spec.set, hxa, h5]
      · intro x l hx hxq hp
        by_cases hxa : x = a
        · subst hxa; simp at hx; subst hx; simp at hp
        · simp only [upd_ne _ _ hxa] at hx
          exact h6 x l hx hxq hp

theorem rep_step {c : WQ α} {s s' : Spec α} {op : Op α} {o : Out α} (h : Rep c s)
    (hs : specStep s op = some (s', o)) : ∃ c', step c op = some (c', o) ∧ Rep c' s' := by
  cases op with
  | newLink a v =>
    simp only [specStep] at hs
    split at hs
    · cases hs
    · cases hs; exact ⟨_, rfl, rep_newLink h ‹_› v⟩
  | push a =>
    simp only [specStep] at hs
    split at hs
    · rename_i v heq
      split at hs
      · cases hs
      · cases hs
        obtain ⟨c', hc, hr⟩ := rep_push h heq ‹_›
        exact ⟨c', by simp [step, hc], hr⟩
    · cases hs
  | pop =>
    simp only [specStep] at hs
    split at hs
    · rename_i hq
      cases hs
      refine ⟨c, ?_, h⟩
      have := h.head; rw [hq] at this
      simp [step, WQ.pop, this, nextOf]
    · rename_i a q hq
      obtain ⟨c', v, hl, hc, hr⟩ := rep_pop_cons h hq
      rw [hl] at hs
      cases hs
      exact ⟨c', by simp [step, hc], hr⟩
  | remove a =>
    simp only [specStep] at hs
    split at hs
    · rename_i v b hl
      cases hs
      obtain ⟨c', hc, hr⟩ := rep_remove h hl
      exact ⟨c', by simp [step, hc], hr⟩
    · cases hs
  | isEmpty =>
    simp only [specStep] at hs
    cases hs
    refine ⟨c, ?_, h⟩
    have := h.head
    cases hq : s.q <;> simp [step, WQ.isEmpty, this, hq, nextOf]
  | isPopped a =>
    simp only [specStep] at hs
    split at hs
    · rename_i v b hl
      cases hs
      refine ⟨c, ?_, h⟩
      have h5 := h.links a
      rw [hl] at h5
      obtain ⟨l, hml, hlv⟩ := Option.map_eq_some_iff.1 h5
      have : l.isPopped = b := by simpa using congrArg Prod.snd hlv
      simp [step, WQ.isPopped, hml, this]
    · cases hs
  | free a =>
    simp only [specStep] at hs
    split at hs
    · cases hs
    · cases hs; exact ⟨_, rfl, rep_free h ‹_›⟩

theorem rep_run {ops : List (Op α)} : ∀ {c : WQ α} {s s' : Spec α} {os : List (Out α)}, Rep c s →
    specRun s ops = some (s', os) → ∃ c', run c ops = some (c', os) ∧ Rep c' s' := by
  induction ops with
  | nil => intro c s s' os h hs; cases hs; exact ⟨c, rfl, h⟩
  | cons op ops ih =>
    intro c s s' os h hs
    simp only [specRun, Option.bind_eq_bind] at hs
    obtain ⟨⟨s1, o⟩, h1, hs⟩ := Option.bind_eq_some_iff.1 hs
    obtain ⟨⟨s2, os'⟩, h2, hs⟩ := Option.bind_eq_some_iff.1 hs
    cases hs
    obtain ⟨c1, hc1, hr1⟩ := rep_step h h1
    obtain ⟨c2, hc2, hr2⟩ := ih hr1 h2
    exact ⟨c2, by simp [run, hc1, hc2], hr2⟩

end Verif.WaitQueue
