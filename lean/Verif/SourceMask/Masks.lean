import Verif.SourceMask.Spec

namespace Verif.SourceMask

theorem shl_bit (o k : Nat) (ho : o < 32) (hk : k < 32) : (1#32 <<< o).getLsbD k = decide (k = o) := by
  rw [BitVec.getLsbD_shiftLeft]
  by_cases h : k = o
  · subst h; simp [hk]
  · by_cases h2 : k < o
    · simp [h2, h]
    · have : (1#32).getLsbD (k - o) = false := by
        rw [BitVec.getLsbD_one]; simp; omega
      simp [this, h]

theorem setBit_some {m m' : Mask} {b : Nat} (h : setBit m b = some m') : m'.length = m.length ∧ ∀ n, m'.has n = (m.has n || decide (n = b)) := by
  unfold setBit at h
  simp only [ge_iff_le] at h
  split at h
  · cases h
  · rename_i hb
    cases h
    refine ⟨by simp, fun n => ?_⟩
    unfold Mask.has
    rw [List.getD_eq_getElem?_getD, List.getElem?_set]
    by_cases hblk : b / 32 = n / 32
    · rw [if_pos hblk, if_pos (by omega), hblk]
      simp only [Option.getD_some, BitVec.getLsbD_or]
      rw [shl_bit _ _ (by omega) (by omega)]
      have : (n % 32 = b - n / 32 * 32) ↔ n = b := by omega
      simp only [this]
    · rw [if_neg hblk, ← List.getD_eq_getElem?_getD]
      have : n ≠ b := fun h => hblk (by rw [h])
      simp [this]

theorem zero_has (M n : Nat) : (zero M).has n = false := by
  unfold Mask.has zero
  rw [List.getD_eq_getElem?_getD]
  by_cases h : n / 32 < M
  · rw [List.getElem?_replicate, if_pos h]; simp
  · rw [List.getElem?_replicate, if_neg h]; simp

theorem foldlM_setBit {l : List Nat} {m m' : Mask} (h : l.foldlM setBit m = some m') :
    m'.length = m.length ∧ ∀ n, m'.has n = (m.has n || decide (n ∈ l)) := by
  induction l generalizing m with
  | nil => simp at h; subst h; simp
  | cons b l ih =>
    rw [List.foldlM_cons] at h
    cases hb : setBit m b with
    | none => rw [hb] at h; cases h
    | some m1 =>
      rw [hb] at h
      obtain ⟨h1, h2⟩ := setBit_some hb
      obtain ⟨h3, h4⟩ := ih h
      refine ⟨by omega, fun n => ?_⟩
      rw [h4, h2, Bool.or_assoc]
      simp [List.mem_cons, Bool.decide_or]

theorem foldlM_setBit_some {l : List Nat} {m : Mask} (h : ∀ b ∈ l, b / 32 < m.length) : ∃ m', l.foldlM setBit m = some m' := by
  induction l generalizing m with
  | nil => exact ⟨m, rfl⟩
  | cons b l ih =>
    rw [List.foldlM_cons]
    have hb : setBit m b = some (m.set (b / 32) (m.getD (b / 32) 0#32 ||| (1#32 <<< (b - b / 32 * 32)))) := by
      unfold setBit
      have := h b List.mem_cons_self
      simp only [ge_iff_le]
      rw [if_neg (by omega)]
    rw [hb]
    exact ih (fun b' hb' => by rw [List.length_set]; exact h b' (List.mem_cons_of_mem _ hb'))

theorem foldl_max_ge (l : List Nat) (a : Nat) :
    a ≤ l.foldl (fun max id => if id > max then id else max) a ∧ ∀ b ∈ l, b ≤ l.foldl (fun max id => if id > max then id else max) a := by
  induction l generalizing a with
  | nil => exact ⟨Nat.le_refl _, fun b hb => by cases hb⟩
  | cons x l ih =>
    rw [List.foldl_cons]
    have h1 := ih (if x > a then x else a)
    have h2 : a ≤ (if x > a then x else a) ∧ x ≤ (if x > a then x else a) := by split <;> omega
    refine ⟨by omega, fun b hb => ?_⟩
    rcases List.mem_cons.mp hb with rfl | hb
    · omega
    · exact h1.2 b hb

theorem chunks_cover {ids : List Nat} {b : Nat} (h : b ∈ ids) : b / 32 < computeMaskChunks ids := by
  have := (foldl_max_ge ids 0).2 b h
  unfold computeMaskChunks
  omega

theorem orInto_has {a b : Mask} (h : a.length = b.length) (n : Nat) : (orInto a b).has n = (a.has n || b.has n) := by
  unfold orInto Mask.has
  simp only [List.getD_eq_getElem?_getD, List.getElem?_zipWith]
  by_cases hn : n / 32 < a.length
  · rw [List.getElem?_eq_getElem hn, List.getElem?_eq_getElem (h ▸ hn)]; simp
  · rw [List.getElem?_eq_none (by omega), List.getElem?_eq_none (by omega)]; simp

theorem orInto_length {a b : Mask} (h : a.length = b.length) : (orInto a b).length = a.length := by
  unfold orInto; simp [h]

theorem computeMask_fold {M : Nat} {masks : List Mask} (hl : ∀ i, (masks.getD i (zero M)).length = M) (l : List Nat) (res : Mask) (hr : res.length = M) :
    (l.foldl (fun res idx => orInto res (masks.getD idx (zero M))) res).length = M ∧
    ∀ n, (l.foldl (fun res idx => orInto res (masks.getD idx (zero M))) res).has n = true ↔ res.has n = true ∨ ∃ i ∈ l, (masks.getD i (zero M)).has n = true := by
  induction l generalizing res with
  | nil => exact ⟨hr, fun n => by simp⟩
  | cons i l ih =>
    rw [List.foldl_cons]
    have hlen : res.length = (masks.getD i (zero M)).length := by rw [hl, hr]
    obtain ⟨h1, h2⟩ := ih (orInto res (masks.getD i (zero M))) (by rw [orInto_length hlen, hr])
    refine ⟨h1, fun n => ?_⟩
    rw [h2, orInto_has hlen]
    simp only [Bool.or_eq_true, List.mem_cons, exists_eq_or_imp, or_assoc]

theorem genMasks_get {irqs : Irqs} {masks : List Mask} (h : genMasks irqs = some masks) :
    masks.length = 3 ∧ ∀ i, i < 3 → createMask (nChunks irqs) (shiftsAt irqs i) = some (masks.getD i (zero (nChunks irqs))) := by
  unfold genMasks at h
  have e : List.range 3 = [0, 1, 2] := rfl
  rw [e] at h
  simp only [List.mapM_cons, List.mapM_nil, Option.pure_def, Option.bind_eq_bind] at h
  cases h0 : createMask (nChunks irqs) (shiftsAt irqs 0) with
  | none => rw [h0] at h; cases h
  | some m0 =>
    cases h1 : createMask (nChunks irqs) (shiftsAt irqs 1) with
    | none => rw [h0, h1] at h; cases h
    | some m1 =>
      cases h2 : createMask (nChunks irqs) (shiftsAt irqs 2) with
      | none => rw [h0, h1, h2] at h; cases h
      | some m2 =>
        rw [h0, h1, h2] at h
        simp at h; subst h
        refine ⟨rfl, fun i hi => ?_⟩
        match i, hi with
        | 0, _ => exact h0
        | 1, _ => exact h1
        | 2, _ => exact h2

theorem masks_length {irqs : Irqs} {masks : List Mask} (h : genMasks irqs = some masks) (i : Nat) :
    (masks.getD i (zero (nChunks irqs))).length = nChunks irqs := by
  obtain ⟨h1, h2⟩ := genMasks_get h
  by_cases hi : i < 3
  · have := (foldlM_setBit (h2 i hi)).1
    rw [this]; simp [zero]
  · rw [List.getD_eq_getElem?_getD, List.getElem?_eq_none (by omega)]; simp [zero]

theorem mem_shiftsAt {irqs : Irqs} {i n : Nat} : n ∈ shiftsAt irqs i ↔ ∃ p, (p, n) ∈ irqs ∧ p - 1 = i := by
  unfold shiftsAt
  simp only [List.mem_map, List.mem_filter, decide_eq_true_eq, Prod.exists, exists_eq_right]

theorem computeMask_spec {irqs : Irqs} {masks : List Mask} (h : genMasks irqs = some masks) {to : Nat} (hto : to ≤ 3) :
    (computeMask (nChunks irqs) 0 to masks).length = nChunks irqs ∧
    ∀ n, (computeMask (nChunks irqs) 0 to masks).has n = true ↔ ∃ p, (p, n) ∈ irqs ∧ p - 1 < to := by
  obtain ⟨h1, h2⟩ := genMasks_get h
  obtain ⟨h3, h4⟩ := computeMask_fold (masks_length h) (List.range' 0 (to - 0)) (zero (nChunks irqs)) (by simp [zero])
  refine ⟨h3, fun n => ?_⟩
  unfold computeMask
  rw [h4, zero_has]
  constructor
  · rintro (h | ⟨i, hi, hm⟩)
    · cases h
    · rw [List.mem_range'_1] at hi
      have := (foldlM_setBit (h2 i (by omega))).2 n
      rw [hm, zero_has, Bool.false_or] at this
      obtain ⟨p, hp, he⟩ := mem_shiftsAt.mp (of_decide_eq_true this.symm)
      exact ⟨p, hp, by omega⟩
  · rintro ⟨p, hp, hlt⟩
    refine .inr ⟨p - 1, ?_, ?_⟩
    · rw [List.mem_range'_1]; omega
    · rw [(foldlM_setBit (h2 (p - 1) (by omega))).2 n]
      have : n ∈ shiftsAt irqs (p - 1) := mem_shiftsAt.mpr ⟨p, hp, rfl⟩
      simp [this]

/-- **C50** For every list of interrupts: generating the masks succeeds (the storage is large enough, no panic), and for every ceiling for which `lock` uses a mask the mask contains exactly the interrupts whose priority
is between 1 and the ceiling. -/
theorem C50_masks_exact (irqs : Irqs) (hp : ∀ x ∈ irqs, 1 ≤ x.1) :
    ∃ masks, genMasks irqs = some masks ∧
      ∀ ceiling, ¬ ceiling ≥ 4 → ∀ n, (computeMask (nChunks irqs) 0 ceiling masks).has n = true ↔ ∃ p, 1 ≤ p ∧ p ≤ ceiling ∧ (p, n) ∈ irqs := by
  have hc : ∀ i, ∃ m, createMask (nChunks irqs) (shiftsAt irqs i) = some m := by
    intro i
    apply foldlM_setBit_some
    intro b hb
    obtain ⟨p, hp, -⟩ := mem_shiftsAt.mp hb
    have : (zero (nChunks irqs)).length = nChunks irqs := by simp [zero]
    rw [this]
    exact chunks_cover (List.mem_map.mpr ⟨(p, b), hp, rfl⟩)
  obtain ⟨m0, e0⟩ := hc 0
  obtain ⟨m1, e1⟩ := hc 1
  obtain ⟨m2, e2⟩ := hc 2
  have hg : genMasks irqs = some [m0, m1, m2] := by
    unfold genMasks
    have e : List.range 3 = [0, 1, 2] := rfl
    rw [e]
    simp only [List.mapM_cons, List.mapM_nil, Option.pure_def, Option.bind_eq_bind, e0, e1, e2, Option.bind_some]
  refine ⟨_, hg, fun ceiling hc n => ?_⟩
  rw [(computeMask_spec hg (by omega)).2]
  constructor
  · rintro ⟨p, h1, h2⟩
    have := hp _ h1
    exact ⟨p, this, by simp only at this; omega, h1⟩
  · rintro ⟨p, h1, h2, h3⟩
    exact ⟨p, h3, by omega⟩

/-- **C50** The number of 32-bit chunks is the smallest that has room for every interrupt number used (and at least one): every number fits, and the largest one does not fit into one chunk less. -/
theorem C50_chunks (ids : List Nat) :
    (∀ b ∈ ids, b < 32 * computeMaskChunks ids) ∧ (1 < computeMaskChunks ids → ∃ b ∈ ids, 32 * (computeMaskChunks ids - 1) ≤ b) := by
  constructor
  · intro b hb; have := chunks_cover hb; omega
  · intro h
    have hm : ∀ (l : List Nat) (a : Nat), l.foldl (fun max id => if id > max then id else max) a = a ∨ l.foldl (fun max id => if id > max then id else max) a ∈ l := by
      intro l
      induction l with
      | nil => intro a; exact .inl rfl
      | cons x l ih =>
        intro a
        rw [List.foldl_cons]
        rcases ih (if x > a then x else a) with h | h
        · rw [h]; split
          · exact .inr List.mem_cons_self
          · exact .inl rfl
        · exact .inr (List.mem_cons_of_mem _ h)
    unfold computeMaskChunks at h ⊢
    rcases hm ids 0 with h0 | h0
    · rw [h0] at h; omega
    · exact ⟨_, h0, by omega⟩

/-- three interrupts, the last in the second chunk -/
example : genMasks [(1, 3), (2, 5), (3, 40)] = some [[8#32, 0#32], [32#32, 0#32], [0#32, 256#32]] ∧
    computeMask 2 0 2 [[8#32, 0#32], [32#32, 0#32], [0#32, 256#32]] = [40#32, 0#32] := by decide

/-- without the bound on the number of chunks the generation does panic -/
example : createMask 1 [40] = none := by decide

end Verif.SourceMask
