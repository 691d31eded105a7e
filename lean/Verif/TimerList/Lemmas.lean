import Verif.TimerList.Spec
import Verif.Ticks.Lemmas

namespace Verif.TimerList

/-! ## Chains -/

/-- The nodes reachable from `p` are exactly `q`, in this order. -/
def Chain (mem : Nat → Option Node) : Option Nat → List Nat → Prop
  | p, [] => p = none
  | p, a :: q => p = some a ∧ ∃ nd, mem a = some nd ∧ Chain mem nd.next q

theorem chain_frame {mem mem' : Nat → Option Node} : ∀ (q : List Nat) (p : Option Nat),
    (∀ a ∈ q, (mem' a).map (·.next) = (mem a).map (·.next)) → Chain mem p q → Chain mem' p q
  | [], _, _, h => h
  | a :: q, p, hf, ⟨h1, nd, h2, h3⟩ => by
    have := hf a List.mem_cons_self
    rw [h2] at this
    cases h4 : mem' a with
    | none => rw [h4] at this; cases this
    | some nd' =>
      rw [h4] at this
      have hn : nd'.next = nd.next := by simpa using this
      exact ⟨h1, nd', h4, by rw [hn]; exact chain_frame q nd.next (fun b hb => hf b (List.mem_cons_of_mem _ hb)) h3⟩

@[simp] theorem upd_self (mem : Nat → Option Node) (a : Nat) (x : Option Node) : upd mem a x a = x := by simp [upd]
theorem upd_ne (mem : Nat → Option Node) {a b : Nat} (x : Option Node) (h : b ≠ a) : upd mem a x b = mem b := by simp [upd, h]

theorem setNext_eq {s : TL} {a : Nat} {l : Node} (h : s.mem a = some l) (v : Option Nat) :
    s.setNext a v = some { s with mem := upd s.mem a (some { l with next := v }) } := by simp [TL.setNext, h]

theorem upd_val {mem : Nat → Option Node} {a : Nat} {l : Node} (h : mem a = some l) (v : Option Nat) (x : Nat) :
    (upd mem a (some { l with next := v }) x).map (·.val) = (mem x).map (·.val) := by
  by_cases hx : x = a
  · subst hx; simp [h]
  · rw [upd_ne _ _ hx]

theorem deleteLoop_spec (addr : Nat) (s : TL) : ∀ (q : List Nat) (curr : Nat) (cl : Node),
    s.mem curr = some cl → Chain s.mem cl.next q → (curr :: q).Nodup →
    ∃ s', s.deleteLoop addr curr cl.next = some s' ∧ s'.head = s.head ∧
      Chain s'.mem (some curr) (curr :: q.filter (· ≠ addr)) ∧
      (∀ x, (s'.mem x).map (·.val) = (s.mem x).map (·.val)) ∧ ∀ x, x ∉ curr :: q → s'.mem x = s.mem x
  | [], curr, cl, hc, hn, _ => by
    have hn : cl.next = none := hn
    rw [TL.deleteLoop.eq_def, hn]
    exact ⟨s, rfl, rfl, ⟨rfl, cl, hc, hn⟩, fun _ => rfl, fun _ _ => rfl⟩
  | n :: q, curr, cl, hc, ⟨hn, nl, hnl, hq⟩, hnd => by
    rw [TL.deleteLoop.eq_def, hn]
    simp only [hnl]
    have hcn : curr ≠ n := by rintro rfl; simp at hnd
    split
    · rename_i h; subst h
      have hnq : n ∉ q := by simp at hnd; exact hnd.2.1
      have hfil : (n :: q).filter (· ≠ n) = q := by
        simp
        intro x hx; rintro rfl; exact hnq hx
      refine ⟨_, setNext_eq hc _, rfl, ⟨rfl, _, upd_self _ _ _, ?_⟩, upd_val hc _, ?_⟩
      · rw [hfil]
        refine chain_frame q _ (fun b hb => ?_) hq
        have : b ≠ curr := by rintro rfl; simp at hnd; exact hnd.1.2 hb
        simp only [upd_ne _ _ this]
      · intro x hx; simp at hx; simp only [upd_ne _ _ hx.1]
    · rename_i hne
      have hnd' : (n :: q).Nodup := (List.nodup_cons.1 hnd).2
      obtain ⟨s', h1, h2, h3, h4, h5⟩ := deleteLoop_spec addr s q n nl hnl hq hnd'
      refine ⟨s', h1, h2, ⟨rfl, cl, ?_, ?_⟩, h4, ?_⟩
      · rw [h5 curr (List.nodup_cons.1 hnd).1, hc]
      · rw [hn]; simpa [hne] using h3
      · intro x hx; exact h5 x (fun h => hx (List.mem_cons_of_mem _ h))

/-- `delete` on a well-formed list removes exactly the given address. -/
theorem delete_spec (addr : Nat) (s : TL) (q : List Nat) (hq : Chain s.mem s.head q) (hnd : q.Nodup) :
    ∃ s', s.delete addr = some s' ∧ Chain s'.mem s'.head (q.filter (· ≠ addr)) ∧
      ∀ x, (s'.mem x).map (·.val) = (s.mem x).map (·.val) := by
  cases q with
  | nil =>
    have : s.head = none := hq
    exact ⟨s, by simp [TL.delete, this], hq, fun _ => rfl⟩
  | cons h q =>
    obtain ⟨hh, hl, hm, hc⟩ := hq
    simp only [TL.delete, hh, hm]
    split
    · rename_i he; subst he
      refine ⟨_, rfl, ?_, fun _ => rfl⟩
      have hfil : (h :: q).filter (· ≠ h) = q := by
        simp
        intro x hx; rintro rfl; exact (List.nodup_cons.1 hnd).1 hx
      rw [hfil]; exact hc
    · rename_i hne
      obtain ⟨s', h1, h2, h3, h4, -⟩ := deleteLoop_spec addr s q h hl hm hc hnd
      refine ⟨s', h1, ?_, h4⟩
      rw [h2, hh]; simpa [hne] using h3

/-- Insertion before the first element that is greater. -/
def ins (lt : Nat → Bool) (a : Nat) : List Nat → List Nat
  | [] => [a]
  | b :: q => if lt b then a :: b :: q else b :: ins lt a q

/-- The comparison of the value `v` with the entry at `b`. -/
def ltAt (w : Nat) (s : TL) (v : Ent) (b : Nat) : Bool :=
  match s.mem b with
  | some nd => v.lt w nd.val
  | none => false

theorem insertLoop_spec (w : Nat) (s : TL) (a : Nat) (v : Ent) (ha : s.mem a = some { val := v, next := none }) :
    ∀ (q : List Nat) (curr : Nat) (cl : Node),
    s.mem curr = some cl → Chain s.mem cl.next q → (curr :: q).Nodup → a ∉ curr :: q →
    ∃ s', s.insertLoop w a v curr cl.next = some s' ∧ s'.head = s.head ∧
      Chain s'.mem (some curr) (curr :: ins (ltAt w s v) a q) ∧
      (∀ x, (s'.mem x).map (·.val) = (s.mem x).map (·.val)) ∧ ∀ x, x ∉ a :: curr :: q → s'.mem x = s.mem x
  | [], curr, cl, hc, hn, _, hac => by
    have hn : cl.next = none := hn
    have hca : a ≠ curr := by simpa using hac
    rw [TL.insertLoop.eq_def, hn]
    refine ⟨_, setNext_eq hc _, rfl, ⟨rfl, _, upd_self _ _ _, rfl, { val := v, next := none }, ?_, rfl⟩, upd_val hc _, ?_⟩
    · simp only [upd_ne _ _ hca, ha]
    · intro x hx; simp at hx; simp only [upd_ne _ _ hx.2]
  | n :: q, curr, cl, hc, ⟨hn, nl, hnl, hq⟩, hnd, hac => by
    rw [TL.insertLoop.eq_def, hn]
    simp only [hnl]
    have hcn : curr ≠ n := by rintro rfl; simp at hnd
    have hca : a ≠ curr := by rintro rfl; simp at hac
    have han : a ≠ n := by rintro rfl; simp at hac
    have hlt : ltAt w s v n = v.lt w nl.val := by simp [ltAt, hnl]
    by_cases hl : v.lt w nl.val = true
    · rw [if_pos hl]
      let s1 : TL := { s with mem := upd s.mem a (some { val := v, next := some n }) }
      have hs1 : s.setNext a (some n) = some s1 := setNext_eq ha _
      have hc1 : s1.mem curr = some cl := by simp only [s1]; rw [upd_ne _ _ hca.symm, hc]
      have hs2 : (do let s1 ← s.setNext a (some n); s1.setNext curr (some a)) =
          some { s1 with mem := upd s1.mem curr (some { cl with next := some a }) } := by rw [hs1]; exact setNext_eq hc1 _
      refine ⟨_, hs2, rfl, ⟨rfl, _, upd_self _ _ _, ?_⟩, ?_, ?_⟩
      · simp only [ins, hlt, hl, if_true]
        refine ⟨rfl, { val := v, next := some n }, ?_, rfl, nl, ?_, ?_⟩
        · rw [upd_ne _ _ hca]; simp [s1]
        · rw [upd_ne _ _ hcn.symm]; simp only [s1]; rw [upd_ne _ _ han.symm, hnl]
        · refine chain_frame q _ (fun b hb => ?_) hq
          have h1 : b ≠ curr := by rintro rfl; simp at hnd; exact hnd.1.2 hb
          have h2 : b ≠ a := by rintro rfl; simp at hac; exact hac.2.2 hb
          rw [upd_ne _ _ h1]; simp only [s1]; rw [upd_ne _ _ h2]
      · intro x; rw [upd_val hc1]; simp only [s1]; exact upd_val ha _ x
      · intro x hx; simp at hx; simp only [upd_ne _ _ hx.2.1]; simp only [s1]; rw [upd_ne _ _ hx.1]
    · rw [if_neg hl]
      have hnd' : (n :: q).Nodup := (List.nodup_cons.1 hnd).2
      have hac' : a ∉ n :: q := fun h => hac (List.mem_cons_of_mem _ h)
      obtain ⟨s', h1, h2, h3, h4, h5⟩ := insertLoop_spec w s a v ha q n nl hnl hq hnd' hac'
      refine ⟨s', h1, h2, ⟨rfl, cl, ?_, ?_⟩, h4, ?_⟩
      · rw [h5 curr, hc]
        intro h; rcases List.mem_cons.1 h with h | h
        · exact hca h.symm
        · exact (List.nodup_cons.1 hnd).1 h
      · rw [hn]
        have hl' : v.lt w nl.val = false := by simpa using hl
        simpa [ins, hlt, hl'] using h3
      · intro x hx; apply h5 x; intro h
        rcases List.mem_cons.1 h with h | h
        · exact hx (by rw [h]; exact List.mem_cons_self)
        · exact hx (List.mem_cons_of_mem _ (List.mem_cons_of_mem _ h))

/-- `insert` of a new link into a well-formed list. -/
theorem insert_spec (w : Nat) (s : TL) (a : Nat) (v : Ent) (q : List Nat) (ha : s.mem a = some { val := v, next := none })
    (hq : Chain s.mem s.head q) (hnd : q.Nodup) (haq : a ∉ q) :
    ∃ s', s.insert w a = some (s', decide ((ins (ltAt w s v) a q).head? = some a)) ∧
      Chain s'.mem s'.head (ins (ltAt w s v) a q) ∧ ∀ x, (s'.mem x).map (·.val) = (s.mem x).map (·.val) := by
  cases q with
  | nil =>
    have : s.head = none := hq
    refine ⟨{ s with head := some a }, by simp [TL.insert, ha, this, ins], ⟨rfl, _, ha, rfl⟩, fun _ => rfl⟩
  | cons h q =>
    obtain ⟨hh, hl, hm, hc⟩ := hq
    have hah : a ≠ h := by rintro rfl; simp at haq
    have hlt : ltAt w s v h = v.lt w hl.val := by simp [ltAt, hm]
    simp only [TL.insert, ha, hh, hm]
    by_cases hL : v.lt w hl.val = true
    · rw [if_pos hL]
      have hs1 := setNext_eq ha (some h)
      refine ⟨_, by rw [hs1]; simp [ins, hlt, hL]; rfl, ?_, upd_val ha _⟩
      simp only [ins, hlt, hL, if_true]
      refine ⟨rfl, _, upd_self _ _ _, rfl, hl, ?_, ?_⟩
      · rw [upd_ne _ _ hah.symm, hm]
      · refine chain_frame q _ (fun b hb => ?_) hc
        have : b ≠ a := by rintro rfl; exact haq (List.mem_cons_of_mem _ hb)
        rw [upd_ne _ _ this]
    · rw [if_neg hL]
      have hL' : v.lt w hl.val = false := by simpa using hL
      obtain ⟨s', h1, h2, h3, h4, -⟩ := insertLoop_spec w s a v ha q h hl hm hc hnd haq
      refine ⟨s', by rw [h1]; simp [ins, hlt, hL', hah.symm], ?_, h4⟩
      rw [h2, hh]; simpa [ins, hlt, hL'] using h3

/-! ## Order -/

/-- `q` holds the elements of `l`, sorted by `t`, equal ones in the order of `l`. -/
def StableSorted (t : Nat → Nat) (q l : List Nat) : Prop :=
  q.Perm l ∧ q.Pairwise (fun a b => t a ≤ t b) ∧ ∀ k, q.filter (fun a => t a = k) = l.filter (fun a => t a = k)

theorem StableSorted.congr {t t' : Nat → Nat} {q l : List Nat} (h : StableSorted t q l) (ht : ∀ a ∈ l, t' a = t a) :
    StableSorted t' q l := by
  obtain ⟨h1, h2, h3⟩ := h
  have hq : ∀ a ∈ q, t' a = t a := fun a ha => ht a (h1.mem_iff.1 ha)
  refine ⟨h1, h2.imp_of_mem ?_, ?_⟩
  · intro a b ha hb hab; rw [hq a ha, hq b hb]; exact hab
  · intro k
    rw [List.filter_congr (q := fun a => decide (t a = k)) (fun a ha => by rw [hq a ha]),
      List.filter_congr (q := fun a => decide (t a = k)) (l := l) (fun a ha => by rw [ht a ha])]
    exact h3 k

theorem StableSorted.filter {t : Nat → Nat} {q l : List Nat} (h : StableSorted t q l) (p : Nat → Bool) :
    StableSorted t (q.filter p) (l.filter p) := by
  obtain ⟨h1, h2, h3⟩ := h
  refine ⟨h1.filter p, h2.filter p, fun k => ?_⟩
  rw [List.filter_filter, List.filter_filter]
  have : ∀ x : List Nat, x.filter (fun a => decide (t a = k) && p a) = (x.filter (fun a => decide (t a = k))).filter p := by
    intro x; rw [List.filter_filter]; congr 1; funext a; exact Bool.and_comm _ _
  rw [this, this, h3]

theorem ins_perm (lt : Nat → Bool) (a : Nat) : ∀ q, (ins lt a q).Perm (q ++ [a])
  | [] => .refl _
  | b :: q => by
    simp only [ins]; split
    · exact (List.perm_append_comm (l₁ := [a]) (l₂ := b :: q))
    · exact (ins_perm lt a q).cons b

theorem ins_sorted {t : Nat → Nat} {lt : Nat → Bool} {a : Nat} : ∀ q : List Nat, q.Pairwise (fun x y => t x ≤ t y) →
    (∀ b ∈ q, lt b = decide (t a < t b)) → (ins lt a q).Pairwise (fun x y => t x ≤ t y) ∧
      ∀ k, (ins lt a q).filter (fun x => t x = k) = (q ++ [a]).filter (fun x => t x = k)
  | [], _, _ => ⟨by simp [ins], fun k => rfl⟩
  | b :: q, hs, hl => by
    have hlb := hl b List.mem_cons_self
    rw [List.pairwise_cons] at hs
    simp only [ins]
    split
    · rename_i h
      rw [hlb] at h
      have hab : t a < t b := by simpa using h
      have hall : ∀ x ∈ b :: q, t a < t x := by
        intro x hx; rcases List.mem_cons.1 hx with rfl | hx
        · exact hab
        · exact Nat.lt_of_lt_of_le hab (hs.1 x hx)
      refine ⟨?_, ?_⟩
      · rw [List.pairwise_cons]; exact ⟨fun x hx => Nat.le_of_lt (hall x hx), List.pairwise_cons.2 hs⟩
      · intro k
        rw [List.filter_append, List.filter_cons]
        by_cases hk : t a = k
        · have : (b :: q).filter (fun x => decide (t x = k)) = [] := by
            rw [List.filter_eq_nil_iff]; intro x hx; have := hall x hx; simp; omega
          simp [hk, this]
        · simp [hk]
    · rename_i h
      rw [hlb] at h
      have hba : t b ≤ t a := by simp at h; exact h
      obtain ⟨h1, h2⟩ := ins_sorted q hs.2 (fun x hx => hl x (List.mem_cons_of_mem _ hx))
      refine ⟨?_, ?_⟩
      · rw [List.pairwise_cons]
        refine ⟨fun x hx => ?_, h1⟩
        rcases List.mem_append.1 ((ins_perm lt a q).mem_iff.1 hx) with hx | hx
        · exact hs.1 x hx
        · simp at hx; rw [hx]; exact hba
      · intro k
        have := h2 k
        rw [List.cons_append, List.filter_cons, List.filter_cons, this]

theorem StableSorted.ins {t : Nat → Nat} {q l : List Nat} {lt : Nat → Bool} {a : Nat} (h : StableSorted t q l)
    (hl : ∀ b ∈ l, lt b = decide (t a < t b)) : StableSorted t (ins lt a q) (l ++ [a]) := by
  obtain ⟨h1, h2, h3⟩ := h
  obtain ⟨h4, h5⟩ := ins_sorted (lt := lt) (a := a) q h2 (fun b hb => hl b (h1.mem_iff.1 hb))
  refine ⟨(ins_perm lt a q).trans (h1.append_right [a]), h4, fun k => ?_⟩
  rw [h5, List.filter_append, List.filter_append, h3]

theorem earliest_of_split {t : Nat → Nat} {a : Nat} {l1 l2 : List Nat} (h1 : ∀ x ∈ l1, t a < t x) (h2 : ∀ x ∈ l2, t a ≤ t x) :
    earliest t (l1 ++ a :: l2) = some a := by
  induction l1 with
  | nil =>
    simp only [List.nil_append, earliest]
    have hm : ∀ (l : List Nat) b, earliest t l = some b → b ∈ l := by
      intro l
      induction l with
      | nil => intro b h; cases h
      | cons x l ih =>
        intro b h; simp only [earliest] at h
        split at h
        · rename_i c hc
          split at h
          · cases h; exact List.mem_cons_of_mem _ (ih _ hc)
          · cases h; exact List.mem_cons_self
        · cases h; exact List.mem_cons_self
    split
    · rename_i b hb
      have := h2 b (hm l2 b hb)
      rw [if_neg (by omega)]
    · rfl
  | cons x l1 ih =>
    simp only [List.cons_append, earliest]
    rw [ih (fun y hy => h1 y (List.mem_cons_of_mem _ hy))]
    simp [h1 x List.mem_cons_self]

theorem earliest_eq_head {t : Nat → Nat} {q l : List Nat} (h : StableSorted t q l) : earliest t l = q.head? := by
  obtain ⟨h1, h2, h3⟩ := h
  cases q with
  | nil => rw [List.nil_perm.1 h1]; rfl
  | cons a q =>
    have hk := h3 (t a)
    rw [List.filter_cons] at hk
    simp at hk
    rw [eq_comm, List.filter_eq_cons_iff] at hk
    obtain ⟨l1, l2, rfl, h4, -, -⟩ := hk
    have hmin : ∀ x ∈ l1 ++ a :: l2, t a ≤ t x := by
      intro x hx
      rcases List.mem_cons.1 (h1.mem_iff.2 hx) with rfl | hx
      · exact Nat.le_refl _
      · exact (List.pairwise_cons.1 h2).1 x hx
    rw [earliest_of_split]
    · rfl
    · intro x hx
      have h5 := hmin x (List.mem_append_left _ hx)
      have h6 := h4 x hx
      simp at h6; omega
    · intro x hx; exact hmin x (List.mem_append_right _ (List.mem_cons_of_mem _ hx))

/-! ## Refinement -/

structure Rep (c : TL) (s : Spec) (q : List Nat) : Prop where
  chain : Chain c.mem c.head q
  nodup : q.Nodup
  links : ∀ x, (c.mem x).map (·.val) = s.links x
  sorted : StableSorted (timeOf s.links) q s.arr

theorem rep_empty : Rep empty Spec.empty [] :=
  ⟨rfl, .nil, fun _ => rfl, .refl _, .nil, fun _ => rfl⟩

theorem set_self (f : Nat → Option Ent) (a : Nat) (x : Option Ent) : set f a x a = x := by simp [set]
theorem set_ne (f : Nat → Option Ent) {a b : Nat} (x : Option Ent) (h : b ≠ a) : set f a x b = f b := by simp [set, h]

theorem timeOf_set_ne (f : Nat → Option Ent) {a b : Nat} (x : Option Ent) (h : b ≠ a) : timeOf (set f a x) b = timeOf f b := by
  simp [timeOf, set_ne f x h]

theorem lt_eq {w : Nat} (hw : 0 < w) (a b : Ent) (h1 : a.time < b.time + 2 ^ (w - 1)) (h2 : b.time < a.time + 2 ^ (w - 1)) :
    a.lt w b = decide (a.time < b.time) := by
  have h := Ticks.toInt_tick_sub_of_bounds (w := w) (a := a.time) (b := b.time) hw (by omega) h1
  unfold Ticks.tick at h
  have h3 := Ticks.compare_lt_iff (BitVec.ofNat w a.time) (BitVec.ofNat w b.time)
  rw [h] at h3
  rw [Bool.eq_iff_iff, Ent.lt, beq_iff_eq, h3, decide_eq_true_iff]
  omega

theorem rep_step {w : Nat} (hw : 0 < w) {c : TL} {s s' : Spec} {q : List Nat} {op : Op} {o : Out} (h : Rep c s q)
    (hs : specStep w s op = some (s', o)) : ∃ c' q', step w c op = some (c', o) ∧ Rep c' s' q' := by
  obtain ⟨h1, h2, h3, h4⟩ := h
  have hmem : ∀ x, x ∈ q ↔ x ∈ s.arr := fun x => h4.1.mem_iff
  cases op with
  | insert a wk t =>
    simp only [specStep] at hs
    split at hs
    · cases hs
    · rename_i hna
      split at hs
      · rename_i hwin
        cases hs
        have haq : a ∉ q := fun h => hna ((hmem a).1 h)
        let c1 := c.newLink a wk t
        let v : Ent := { waker := wk, time := t, popped := false }
        have hc1 : c1.mem a = some { val := v, next := none } := by simp [c1, TL.newLink, v]
        have hch : Chain c1.mem c1.head q := by
          refine chain_frame q _ (fun b hb => ?_) h1
          have : b ≠ a := by rintro rfl; exact haq hb
          simp [c1, TL.newLink, upd_ne _ _ this]
        have hval : ∀ x, (c1.mem x).map (·.val) = set s.links a (some v) x := by
          intro x
          by_cases hx : x = a
          · subst hx; simp [hc1, set_self]
          · rw [set_ne _ _ hx, ← h3 x]; simp [c1, TL.newLink, upd_ne _ _ hx]
        obtain ⟨c', h5, h6, h7⟩ := insert_spec w c1 a v q hc1 hch h2 haq
        have hta : timeOf (set s.links a (some v)) a = t := by simp [timeOf, set_self, v]
        have hne : ∀ b ∈ s.arr, b ≠ a := by rintro b hb rfl; exact hna hb
        have hst : StableSorted (timeOf (set s.links a (some v))) q s.arr :=
          h4.congr (fun b hb => timeOf_set_ne _ _ (hne b hb))
        have hst' := hst.ins (lt := ltAt w c1 v) (a := a) (by
          intro b hb
          rw [timeOf_set_ne _ _ (hne b hb), hta]
          have hv := hval b
          rw [set_ne _ _ (hne b hb)] at hv
          have hwb := hwin b hb
          have hb' : ∃ nd, c1.mem b = some nd := by
            have : ∀ (q : List Nat) (p), Chain c1.mem p q → b ∈ q → ∃ nd, c1.mem b = some nd := by
              intro q
              induction q with
              | nil => intro p _ h; cases h
              | cons x q ih =>
                rintro p ⟨-, nd, hx, hc⟩ hm
                rcases List.mem_cons.1 hm with rfl | hm
                · exact ⟨nd, hx⟩
                · exact ih _ hc hm
            exact this q _ hch ((hmem b).2 hb)
          obtain ⟨nd, hnd⟩ := hb'
          rw [hnd] at hv
          have htb : timeOf s.links b = nd.val.time := by simp [timeOf, ← hv]
          rw [htb] at hwb ⊢
          simp only [ltAt, hnd]
          exact lt_eq hw v nd.val hwb.1 hwb.2)
        refine ⟨c', _, ?_, h6, ?_, ?_, hst'⟩
        · simp only [step]; rw [show c.newLink a wk t = c1 from rfl, h5, earliest_eq_head hst']; rfl
        · rw [(ins_perm _ a q).nodup_iff, List.nodup_append]
          exact ⟨h2, by simp, by intro x hx y hy; simp at hy; subst hy; rintro rfl; exact haq hx⟩
        · intro x; rw [h7, hval]
      · cases hs
  | delete a =>
    simp only [specStep] at hs; cases hs
    obtain ⟨c', h5, h6, h7⟩ := delete_spec a c q h1 h2
    refine ⟨c', _, by simp [step, h5], h6, h2.filter _, fun x => by rw [h7, h3], h4.filter _⟩
  | popIf f =>
    simp only [specStep, earliest_eq_head h4] at hs
    cases q with
    | nil =>
      simp at hs; obtain ⟨rfl, rfl⟩ := hs
      have hh : c.head = none := h1
      exact ⟨c, [], by simp [step, TL.popIf, hh], h1, h2, h3, h4⟩
    | cons a q =>
      obtain ⟨hh, nd, hm, hc⟩ := h1
      have hl := h3 a
      rw [hm] at hl
      simp only [List.head?_cons, ← hl, Option.map_some] at hs
      have hcong : ∀ (b : Bool) x, timeOf (set s.links a (some { nd.val with popped := b })) x = timeOf s.links x := by
        intro b x
        by_cases hx : x = a
        · subst hx; simp [timeOf, set_self, ← hl]
        · exact timeOf_set_ne _ _ hx
      have hlk : ∀ (b : Bool) x, (upd c.mem a (some { nd with val := { nd.val with popped := b } }) x).map (·.val) =
          set s.links a (some { nd.val with popped := b }) x := by
        intro b x
        by_cases hx : x = a
        · subst hx; simp [set_self]
        · rw [upd_ne _ _ hx, set_ne _ _ hx, h3]
      have hnx : ∀ (b : Bool) x, (upd c.mem a (some { nd with val := { nd.val with popped := b } }) x).map (·.next) =
          (c.mem x).map (·.next) := by
        intro b x
        by_cases hx : x = a
        · subst hx; simp [hm]
        · rw [upd_ne _ _ hx]
      split at hs
      · rename_i hf
        cases hs
        refine ⟨{ head := nd.next, mem := upd c.mem a (some { nd with val := { nd.val with popped := true } }) }, q, ?_, ?_, ?_, ?_, ?_⟩
        · simp [step, TL.popIf, hh, hm, hf]
        · exact chain_frame q _ (fun b _ => hnx true b) hc
        · exact (List.nodup_cons.1 h2).2
        · exact hlk true
        · have hfil : (a :: q).filter (· ≠ a) = q := by
            simp
            intro x hx; rintro rfl; exact (List.nodup_cons.1 h2).1 hx
          have := h4.filter (· ≠ a)
          rw [hfil] at this
          exact this.congr (fun x _ => hcong true x)
      · rename_i hf
        cases hs
        have hf : f nd.val = false := by simpa using hf
        refine ⟨{ head := c.head, mem := upd c.mem a (some { nd with val := { nd.val with popped := false } }) }, a :: q, ?_, ?_, h2, ?_, ?_⟩
        · simp [step, TL.popIf, hh, hm, hf]
        · exact chain_frame (a :: q) _ (fun b _ => hnx false b) ⟨hh, nd, hm, hc⟩
        · exact hlk false
        · exact h4.congr (fun x _ => hcong false x)
  | wasPopped a =>
    simp only [specStep] at hs
    split at hs
    · rename_i e he
      cases hs
      have := h3 a
      rw [he] at this
      refine ⟨c, q, ?_, h1, h2, h3, h4⟩
      cases hm : c.mem a with
      | none => rw [hm] at this; cases this
      | some nd => rw [hm] at this; simp at this; simp [step, hm, this]
    · cases hs
  | free a =>
    simp only [specStep] at hs
    split at hs
    · cases hs
    · rename_i hna
      cases hs
      have haq : a ∉ q := fun h => hna ((hmem a).1 h)
      refine ⟨_, q, rfl, ?_, h2, ?_, ?_⟩
      · refine chain_frame q _ (fun b hb => ?_) h1
        have : b ≠ a := by rintro rfl; exact haq hb
        simp [upd_ne _ _ this]
      · intro x
        by_cases hx : x = a
        · subst hx; simp [set_self]
        · show _ = set s.links a none x
          rw [set_ne _ _ hx, ← h3 x]; simp [upd_ne _ _ hx]
      · exact h4.congr (fun b hb => timeOf_set_ne _ _ (by rintro rfl; exact hna hb))

theorem rep_run {w : Nat} (hw : 0 < w) : ∀ (ops : List Op) {c : TL} {s s' : Spec} {q : List Nat} {os : List Out}, Rep c s q →
    specRun w s ops = some (s', os) → ∃ c' q', run w c ops = some (c', os) ∧ Rep c' s' q'
  | [], c, s, s', q, os, h, hs => by cases hs; exact ⟨c, q, rfl, h⟩
  | op :: ops, c, s, s', q, os, h, hs => by
    simp only [specRun, Option.bind_eq_bind, Option.bind_eq_some_iff] at hs
    obtain ⟨⟨s1, o⟩, h1, ⟨s2, os'⟩, h2, h3⟩ := hs
    cases h3
    obtain ⟨c1, q1, h4, h5⟩ := rep_step hw h h1
    obtain ⟨c2, q2, h6, h7⟩ := rep_run hw ops h5 h2
    exact ⟨c2, q2, by simp [run, h4, h6], h7⟩

end Verif.TimerList
