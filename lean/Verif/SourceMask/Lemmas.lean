import Verif.SourceMask.Masks

namespace Verif.SourceMask

/-- every bit of `a` is in `b` -/
def Sub (a b : BitVec 32) : Prop := ∀ k, a.getLsbD k = true → b.getLsbD k = true

theorem Sub.refl (a : BitVec 32) : Sub a a := fun _ h => h
theorem Sub.trans {a b c : BitVec 32} (h1 : Sub a b) (h2 : Sub b c) : Sub a c := fun k h => h2 k (h1 k h)
theorem Sub.zero (a : BitVec 32) : Sub 0#32 a := fun k h => by simp at h
theorem Sub.and_left (a b : BitVec 32) : Sub (a &&& b) a := fun k h => by rw [BitVec.getLsbD_and, Bool.and_eq_true] at h; exact h.1
theorem Sub.and {a b : BitVec 32} (h : Sub a b) (m : BitVec 32) : Sub (a &&& m) (b &&& m) := fun k hk => by
  rw [BitVec.getLsbD_and, Bool.and_eq_true] at hk ⊢; exact ⟨h k hk.1, hk.2⟩
theorem Sub.or {a b c : BitVec 32} (h1 : Sub a c) (h2 : Sub b c) : Sub (a ||| b) c := fun k h => by
  rw [BitVec.getLsbD_or, Bool.or_eq_true] at h
  exact h.elim (h1 k) (h2 k)

theorem and_not_zero (a : BitVec 32) : a &&& ~~~0#32 = a := by
  ext k hk; simp only [BitVec.getElem_and, BitVec.getElem_not, BitVec.getElem_zero, Bool.not_false, Bool.and_true]
theorem and_not_or (a m : BitVec 32) : (a &&& ~~~m) ||| a = a := by
  ext k hk; simp only [BitVec.getElem_or, BitVec.getElem_and, BitVec.getElem_not]; cases a[k] <;> simp

theorem upd_same (f : Regs) (i : Nat) (v : BitVec 32) : upd f i v i = v := by simp [upd]
theorem upd_ne (f : Regs) {i j : Nat} (v : BitVec 32) (h : j ≠ i) : upd f i v j = f j := by simp [upd, h]

/-- the enable bits implied by the stack -/
def exp (c : Cfg) (e0 : Regs) : List Rec → Regs
  | [] => e0
  | .cl r i _ :: rest => fun j => if j < i then exp c e0 rest j &&& ~~~(c.m r j) else exp c e0 rest j
  | .lk r _ :: rest => fun j => exp c e0 rest j &&& ~~~(c.m r j)
  | .st r i _ :: rest => fun j => if j < i then exp c e0 rest j else exp c e0 rest j &&& ~~~(c.m r j)
  | .body _ :: rest | .rd _ _ _ :: rest | .cs0 _ _ :: rest | .cs _ _ :: rest => exp c e0 rest

def masked : List Rec → Bool
  | [] => false
  | .cs _ _ :: _ => true
  | _ :: rest => masked rest

/-- consistency of the stack -/
def Ok (c : Cfg) (e0 : Regs) : List Rec → Prop
  | [] => True
  | .body t :: rest =>
    ((rest = [] ∧ c.prio t = 0) ∨
     (masked rest = false ∧ (∃ cur, top rest = some cur ∧ c.prio cur < c.prio t) ∧ ∀ n, c.bind t = some n → enabled (exp c e0 rest) n = true)) ∧ Ok c e0 rest
  | .rd r _ old :: rest | .cl r _ old :: rest | .lk r old :: rest | .st r _ old :: rest =>
    (∀ j, Sub (old j) (exp c e0 rest j)) ∧ ¬ c.ceil r ≥ 4 ∧ (∃ t, top rest = some t ∧ c.uses t r) ∧ inCode rest = true ∧ Ok c e0 rest
  | .cs0 r m :: rest | .cs r m :: rest =>
    m = masked rest ∧ (∀ r', r = some r' → ∃ t, top rest = some t ∧ c.uses t r') ∧ inCode rest = true ∧ Ok c e0 rest

structure Inv (c : Cfg) (e0 : Regs) (s : St) : Prop where
  ok : Ok c e0 s.stack
  en : ∀ j, Sub (s.en j) (exp c e0 s.stack j)
  pm : s.pm = masked s.stack
  ne : s.stack ≠ []

/-- beyond the chunks the mask is empty -/
theorem m_beyond {c : Cfg} (hwf : WellFormed c) {r i : Nat} (hr : ¬ c.ceil r ≥ 4) (hi : ¬ i < nChunks c.irqs) : c.m r i = 0#32 := by
  unfold Cfg.m Cfg.mask
  have := (computeMask_spec hwf.masks (to := c.ceil r) (by omega)).1
  rw [List.getD_eq_getElem?_getD, List.getElem?_eq_none (by omega)]
  rfl

theorem inv_start {c : Cfg} {idle : Nat} (e0 : Regs) (hi : c.prio idle = 0) : Inv c e0 (start idle e0) :=
  ⟨⟨.inl ⟨rfl, hi⟩, trivial⟩, fun _ => Sub.refl _, rfl, by simp [start]⟩

theorem enabled_sub {a b : Regs} (h : ∀ j, Sub (a j) (b j)) {n : Nat} (hn : enabled a n = true) : enabled b n = true := h _ _ hn

theorem inCode_ne {l : List Rec} (h : inCode l = true) : l ≠ [] := by rintro rfl; simp [inCode] at h

theorem inv_step {c : Cfg} (hwf : WellFormed c) {e0 : Regs} {s s' : St} {a : Act} (hi : Inv c e0 s) (hs : Step c s a s') : Inv c e0 s' := by
  obtain ⟨hok, hen, hpm, hne⟩ := hi
  obtain ⟨st, en, pm⟩ := s
  cases hs with
  | irq t cur htop ha =>
    simp only at htop hok hen hpm
    refine ⟨⟨.inr ⟨by rw [← hpm]; exact ha.1, ⟨cur, htop, ha.2.1⟩, fun n hn => enabled_sub hen (ha.2.2 n hn)⟩, hok⟩, hen, hpm, by simp⟩
  | lockCs t r htop hc hu hr => exact ⟨⟨hpm, fun r' h => by cases h; exact ⟨t, htop, hu⟩, hc, hok⟩, hen, hpm, by simp⟩
  | lock t r htop hc hu hr => exact ⟨⟨fun j => Sub.zero _, hr, ⟨t, htop, hu⟩, hc, hok⟩, hen, hpm, by simp⟩
  | userCs hc => exact ⟨⟨hpm, fun r' h => (by cases h), hc, hok⟩, hen, hpm, by simp⟩
  | rd r i old rest h hi =>
    simp only at h hok hen hpm; subst h
    refine ⟨⟨fun j => ?_, hok.2⟩, hen, hpm, by simp⟩
    unfold guardUpd
    split
    · by_cases hj : j = i
      · subst hj; rw [upd_same]; exact hen j
      · rw [upd_ne _ _ hj]; exact hok.1 j
    · exact hok.1 j
  | rdEnd r i old rest h hi =>
    simp only at h hok hen hpm; subst h
    refine ⟨hok, fun j => ?_, hpm, by simp⟩
    simp only [exp]; exact hen j
  | cl r i old rest h hi =>
    simp only at h hok hen hpm; subst h
    refine ⟨hok, fun j => ?_, hpm, by simp⟩
    have := hen j
    simp only [exp] at this ⊢
    by_cases hj : j = i
    · subst hj
      rw [if_neg (by omega)] at this
      rw [if_pos (by omega)]
      unfold guardUpd; split
      · rw [upd_same]; exact this.and _
      · rename_i hz; rw [Classical.not_not.mp hz, and_not_zero]; exact this
    · have e : guardUpd (c.m r i) en i (en i &&& ~~~c.m r i) j = en j := by
        unfold guardUpd; split
        · rw [upd_ne _ _ hj]
        · rfl
      rw [e]
      by_cases hlt : j < i
      · rw [if_pos hlt] at this; rw [if_pos (by omega)]; exact this
      · rw [if_neg hlt] at this; rw [if_neg (by omega)]; exact this
  | clEnd r i old rest h hi =>
    simp only at h hok hen hpm; subst h
    refine ⟨hok, fun j => ?_, hpm, by simp⟩
    have := hen j
    simp only [exp] at this ⊢
    by_cases hlt : j < i
    · rw [if_pos hlt] at this; exact this
    · rw [if_neg hlt] at this
      rw [m_beyond hwf hok.2.1 (by omega), and_not_zero]; exact this
  | unlock r old rest h =>
    simp only at h hok hen hpm; subst h
    refine ⟨hok, fun j => ?_, hpm, by simp⟩
    simp only [exp]; exact hen j
  | st r i old rest h hi =>
    simp only at h hok hen hpm; subst h
    refine ⟨hok, fun j => ?_, hpm, by simp⟩
    have := hen j
    simp only [exp] at this ⊢
    by_cases hj : j = i
    · subst hj
      rw [if_neg (by omega)] at this
      rw [if_pos (by omega)]
      unfold guardUpd; split
      · rw [upd_same]; exact (this.trans (Sub.and_left _ _)).or (hok.1 j)
      · exact this.trans (Sub.and_left _ _)
    · have e : guardUpd (c.m r i) en i (en i ||| old i) j = en j := by
        unfold guardUpd; split
        · rw [upd_ne _ _ hj]
        · rfl
      rw [e]
      by_cases hlt : j < i
      · rw [if_pos hlt] at this; rw [if_pos (by omega)]; exact this
      · rw [if_neg hlt] at this; rw [if_neg (by omega)]; exact this
  | stEnd r i old rest h hi =>
    simp only at h hok hen hpm; subst h
    refine ⟨hok.2.2.2.2, fun j => ?_, hpm, inCode_ne hok.2.2.2.1⟩
    have := hen j
    simp only [exp] at this ⊢
    split at this
    · exact this
    · exact this.trans (Sub.and_left _ _)
  | raiseCs r m rest h =>
    simp only at h hok hen hpm; subst h
    exact ⟨hok, hen, rfl, by simp⟩
  | unlockCs r m rest h =>
    simp only at h hok hen hpm; subst h
    exact ⟨hok.2.2.2, hen, hok.1, inCode_ne hok.2.2.1⟩
  | nvicMask n hc =>
    refine ⟨hok, fun j => ?_, hpm, hne⟩
    simp only at hen ⊢
    by_cases hj : j = n / 32
    · subst hj; rw [upd_same]; exact (Sub.and_left _ _).trans (hen _)
    · rw [upd_ne _ _ hj]; exact hen j
  | ret t rest h hne' =>
    simp only at h hok hen hpm; subst h
    exact ⟨hok.2, hen, hpm, hne'⟩

theorem inv_exec {c : Cfg} (hwf : WellFormed c) {e0 : Regs} {s s' : St} {as : List Act} (hx : Exec c s as s') (hi : Inv c e0 s) : Inv c e0 s' := by
  induction hx with
  | nil => exact hi
  | snoc _ hs ih => exact inv_step hwf ih hs

/-- going up the stack only disables -/
theorem exp_mono {c : Cfg} {e0 : Regs} (l1 l2 : List Rec) (j : Nat) : Sub (exp c e0 (l1 ++ l2) j) (exp c e0 l2 j) := by
  induction l1 with
  | nil => exact Sub.refl _
  | cons x l ih =>
    rw [List.cons_append]
    cases x <;> simp only [exp] <;> try exact ih
    · split
      · exact (Sub.and_left _ _).trans ih
      · exact ih
    · exact (Sub.and_left _ _).trans ih
    · split
      · exact ih
      · exact (Sub.and_left _ _).trans ih

theorem masked_of_mem {l : List Rec} {r : Option Nat} {m : Bool} (h : .cs r m ∈ l) : masked l = true := by
  induction l with
  | nil => cases h
  | cons x l ih =>
    rcases List.mem_cons.mp h with rfl | h'
    · rfl
    · have := ih h'
      cases x <;> simp only [masked] <;> exact this

theorem ok_append {c : Cfg} {e0 : Regs} {l1 l2 : List Rec} (h : Ok c e0 (l1 ++ l2)) : Ok c e0 l2 := by
  induction l1 with
  | nil => exact h
  | cons x l ih =>
    rw [List.cons_append] at h
    cases x <;> first | exact ih h.2 | exact ih h.2.2.2.2 | exact ih h.2.2.2

/-! ## Exact restoration, when nobody calls `NVIC::mask` -/

def ExactOk (c : Cfg) (e0 : Regs) : List Rec → Prop
  | [] => True
  | .rd r i old :: rest => (∀ j, j < i → j < nChunks c.irqs → c.m r j ≠ 0#32 → old j = exp c e0 rest j) ∧ ExactOk c e0 rest
  | .cl r _ old :: rest | .lk r old :: rest | .st r _ old :: rest =>
    (∀ j, j < nChunks c.irqs → c.m r j ≠ 0#32 → old j = exp c e0 rest j) ∧ ExactOk c e0 rest
  | .body _ :: rest | .cs0 _ _ :: rest | .cs _ _ :: rest => ExactOk c e0 rest

structure Exact (c : Cfg) (e0 : Regs) (s : St) : Prop where
  ok : ExactOk c e0 s.stack
  en : s.en = exp c e0 s.stack

theorem exact_step {c : Cfg} (hwf : WellFormed c) {e0 : Regs} {s s' : St} {a : Act} (hi : Inv c e0 s) (he : Exact c e0 s) (hn : ∀ n, a ≠ .nvicMask n)
    (hs : Step c s a s') : Exact c e0 s' := by
  obtain ⟨hok, -, -, -⟩ := hi
  obtain ⟨hex, hen⟩ := he
  obtain ⟨st, en, pm⟩ := s
  cases hs with
  | irq t cur htop ha => exact ⟨hex, hen⟩
  | lockCs t r htop hc hu hr => exact ⟨hex, hen⟩
  | lock t r htop hc hu hr => exact ⟨⟨fun j hj => absurd hj (Nat.not_lt_zero _), hex⟩, hen⟩
  | userCs hc => exact ⟨hex, hen⟩
  | rd r i old rest h hi =>
    simp only at h hok hen hex; subst h
    refine ⟨⟨fun j hj hj2 hm => ?_, hex.2⟩, hen⟩
    by_cases hji : j = i
    · subst hji
      unfold guardUpd; rw [if_pos hm, upd_same]
      show en j = _
      rw [hen]; rfl
    · unfold guardUpd; split
      · rw [upd_ne _ _ hji]; exact hex.1 j (by omega) hj2 hm
      · exact hex.1 j (by omega) hj2 hm
  | rdEnd r i old rest h hi =>
    simp only at h hok hen hex; subst h
    refine ⟨⟨fun j hj2 hm => hex.1 j (by omega) hj2 hm, hex.2⟩, ?_⟩
    simp only [hen]; funext j; simp only [exp]; rw [if_neg (Nat.not_lt_zero _)]
  | cl r i old rest h hi =>
    simp only at h hok hen hex; subst h
    refine ⟨hex, ?_⟩
    funext j
    have hj' := congrFun hen j
    simp only [exp] at hj' ⊢
    by_cases hj : j = i
    · subst hj
      rw [if_neg (by omega)] at hj'
      rw [if_pos (by omega)]
      unfold guardUpd; split
      · rw [upd_same, hj']
      · rename_i hz; rw [Classical.not_not.mp hz, and_not_zero, hj']
    · have e : guardUpd (c.m r i) en i (en i &&& ~~~c.m r i) j = en j := by
        unfold guardUpd; split
        · rw [upd_ne _ _ hj]
        · rfl
      rw [e, hj']
      by_cases hlt : j < i
      · rw [if_pos hlt, if_pos (by omega)]
      · rw [if_neg hlt, if_neg (by omega)]
  | clEnd r i old rest h hi =>
    simp only at h hok hen hex; subst h
    refine ⟨hex, ?_⟩
    funext j
    have hj' := congrFun hen j
    simp only [exp] at hj' ⊢
    rw [hj']
    split
    · rfl
    · rw [m_beyond hwf hok.2.1 (by omega), and_not_zero]
  | unlock r old rest h =>
    simp only at h hok hen hex; subst h
    refine ⟨hex, ?_⟩
    funext j; simp only [exp]; rw [if_neg (Nat.not_lt_zero _)]; exact congrFun hen j
  | st r i old rest h hi =>
    simp only at h hok hen hex; subst h
    refine ⟨hex, ?_⟩
    funext j
    have hj' := congrFun hen j
    simp only [exp] at hj' ⊢
    by_cases hj : j = i
    · subst hj
      rw [if_neg (by omega)] at hj'
      rw [if_pos (by omega)]
      unfold guardUpd; split
      · rename_i hz
        rw [upd_same, hj', hex.1 j hi hz, and_not_or]
      · rename_i hz; rw [hj', Classical.not_not.mp hz, and_not_zero]
    · have e : guardUpd (c.m r i) en i (en i ||| old i) j = en j := by
        unfold guardUpd; split
        · rw [upd_ne _ _ hj]
        · rfl
      rw [e, hj']
      by_cases hlt : j < i
      · rw [if_pos hlt, if_pos (by omega)]
      · rw [if_neg hlt, if_neg (by omega)]
  | stEnd r i old rest h hi =>
    simp only at h hok hen hex; subst h
    refine ⟨hex.2, ?_⟩
    funext j
    have hj' := congrFun hen j
    simp only [exp] at hj' ⊢
    rw [hj']
    split
    · rfl
    · rw [m_beyond hwf hok.2.1 (by omega), and_not_zero]
  | raiseCs r m rest h =>
    simp only at h hok hen hex; subst h
    exact ⟨hex, hen⟩
  | unlockCs r m rest h =>
    simp only at h hok hen hex; subst h
    exact ⟨hex, hen⟩
  | nvicMask n hc => exact absurd rfl (hn n)
  | ret t rest h hne' =>
    simp only at h hok hen hex; subst h
    exact ⟨hex, hen⟩

theorem exact_exec {c : Cfg} (hwf : WellFormed c) {e0 : Regs} {s s' : St} {as : List Act} (hx : Exec c s as s') (hi : Inv c e0 s) (he : Exact c e0 s)
    (hn : ∀ n, .nvicMask n ∉ as) : Exact c e0 s' := by
  induction hx with
  | nil => exact he
  | snoc h hs ih =>
    have := ih (fun n hm => hn n (List.mem_append_left _ hm))
    exact exact_step hwf (inv_exec hwf h hi) this (fun n e => hn n (by subst e; simp)) hs

end Verif.SourceMask
