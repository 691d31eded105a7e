import Verif.Rcc.Model

/-!
# C96: starting an STM32 monotonic enables and resets exactly its own timer
-/

namespace Verif.Rcc

/-! ## Specification -/

/-- the same name up to ASCII case -/
def Same (a b : Name) : Prop := a.map lower = b.map lower

/-- the same letter in either case, or the same byte -/
def SameByte (a b : UInt8) : Prop := a = b ∨ ∃ k : Nat, k < 26 ∧ (a.toNat = 65 + k ∧ b.toNat = 97 + k ∨ a.toNat = 97 + k ∧ b.toNat = 65 + k)

theorem lower_toNat (a : UInt8) : (lower a).toNat = if 65 ≤ a.toNat ∧ a.toNat ≤ 90 then a.toNat + 32 else a.toNat := by
  unfold lower
  simp only [UInt8.le_iff_toNat_le]
  have e1 : (65 : UInt8).toNat = 65 := rfl
  have e2 : (90 : UInt8).toNat = 90 := rfl
  have e3 : (32 : UInt8).toNat = 32 := rfl
  rw [e1, e2]
  split
  · rw [UInt8.toNat_add, e3]; omega
  · rfl

theorem lower_eq_iff (a b : UInt8) : lower a = lower b ↔ SameByte a b := by
  unfold SameByte
  rw [← UInt8.toNat_inj, ← UInt8.toNat_inj, lower_toNat, lower_toNat]
  constructor
  · intro h
    by_cases ha : 65 ≤ a.toNat ∧ a.toNat ≤ 90 <;> by_cases hb : 65 ≤ b.toNat ∧ b.toNat ≤ 90
    · rw [if_pos ha, if_pos hb] at h; exact .inl (by omega)
    · rw [if_pos ha, if_neg hb] at h; exact .inr ⟨a.toNat - 65, by omega, .inl (by omega)⟩
    · rw [if_neg ha, if_pos hb] at h; exact .inr ⟨b.toNat - 65, by omega, .inr (by omega)⟩
    · rw [if_neg ha, if_neg hb] at h; exact .inl h
  · rintro (h | ⟨k, hk, ⟨h1, h2⟩ | ⟨h1, h2⟩⟩)
    · rw [h]
    · rw [if_pos (by omega), if_neg (by omega)]; omega
    · rw [if_neg (by omega), if_pos (by omega)]; omega

/-- **C96** (names) What that means: of the same length, and byte for byte the same or the same letter in either case. -/
theorem C96_same_iff (a b : Name) : Same a b ↔ a.length = b.length ∧ ∀ i, ∀ (ha : i < a.length) (hb : i < b.length), SameByte a[i] b[i] := by
  unfold Same
  constructor
  · intro h
    have hl := congrArg List.length h
    simp only [List.length_map] at hl
    refine ⟨hl, fun i ha hb => (lower_eq_iff _ _).mp ?_⟩
    have := congrArg (·[i]?) h
    simpa [ha, hb] using this
  · rintro ⟨hl, h⟩
    refine List.ext_getElem (by simp [hl]) fun i h1 h2 => ?_
    simp only [List.length_map] at h1 h2
    simpa using (lower_eq_iff _ _).mpr (h i h1 h2)

/-- The metadata says: bit `bit` of the word at address `addr` is field `field` of RCC register `register`. -/
def Denotes (md : Metadata) (register field : Name) (addr bit : Nat) : Prop :=
  ∃ p ∈ md.peripherals, Same p.name rccName ∧ ∃ regs, p.registers = some regs ∧ ∃ blk ∈ regs.blocks, Same blk.name regs.block ∧ ∃ it ∈ blk.items, Same it.name register ∧ it.isArray = false ∧
    ∃ fsn, it.inner = .register (some fsn) ∧ ∃ fs ∈ regs.fieldsets, Same fs.name fsn ∧ ∃ f ∈ fs.fields, Same f.name field ∧ f.offset = some bit ∧ addr = p.address % 2 ^ 32 + it.byteOffset

/-- no two have the same name -/
def Distinct (l : List Name) : Prop := l.Pairwise fun a b => ¬ Same a b

/-- names in the metadata are unambiguous -/
structure Unambiguous (md : Metadata) : Prop where
  peripherals : Distinct (md.peripherals.map (·.name))
  blocks : ∀ p ∈ md.peripherals, ∀ regs, p.registers = some regs → Distinct (regs.blocks.map (·.name))
  items : ∀ p ∈ md.peripherals, ∀ regs, p.registers = some regs → ∀ b ∈ regs.blocks, Distinct (b.items.map (·.name))
  fieldsets : ∀ p ∈ md.peripherals, ∀ regs, p.registers = some regs → Distinct (regs.fieldsets.map (·.name))
  fields : ∀ p ∈ md.peripherals, ∀ regs, p.registers = some regs → ∀ fs ∈ regs.fieldsets, Distinct (fs.fields.map (·.name))

/-- bit `i` of the word at `addr` -/
def bitAt (mem : Nat → BitVec 32) (addr i : Nat) : Bool := (mem addr).getLsbD i

/-! ## Lookup -/

theorem streqLoop_iff (a b : Name) : ∀ (n i : Nat), streqLoop a b i n = true ↔ ∀ j, i ≤ j → j < i + n → lower (a.getD j 0) = lower (b.getD j 0)
  | 0, i => by simp only [streqLoop, true_iff]; omega
  | n + 1, i => by
    simp only [streqLoop]
    split
    · next h =>
      rw [streqLoop_iff a b n (i + 1)]
      constructor
      · intro h' j h1 h2
        by_cases e : j = i
        · rw [e]; exact h
        · exact h' j (by omega) (by omega)
      · intro h' j h1 h2
        exact h' j (by omega) (by omega)
    · next h =>
      simp only [Bool.false_eq_true, false_iff]
      intro h'
      exact h (h' i (by omega) (by omega))

/-- **C96** (names) Names are compared up to ASCII case, and completely. -/
theorem C96_streq (a b : Name) : streq a b = true ↔ Same a b := by
  unfold streq Same
  split
  · next h =>
    simp only [Bool.false_eq_true, false_iff]
    intro e
    have := congrArg List.length e
    simp at this
    exact h this
  · next h =>
    have h : a.length = b.length := Decidable.not_not.1 h
    rw [streqLoop_iff]
    constructor
    · intro h'
      apply List.ext_getElem
      · simp [h]
      · intro j h1 h2
        simp only [List.length_map] at h1 h2
        have := h' j (by omega) (by omega)
        simpa [List.getD_eq_getElem?_getD, List.getElem?_eq_getElem, h1, h2] using this
    · intro e j _ h2
      have h1 : j < a.length := by omega
      have h2 : j < b.length := by omega
      have := congrArg (fun l => l[j]?) e
      simp only [List.getElem?_map, List.getElem?_eq_getElem, h1, h2, Option.map_some, Option.some.injEq] at this
      simpa [List.getD_eq_getElem?_getD, List.getElem?_eq_getElem, h1, h2] using this

theorem same_symm {a b : Name} (h : Same a b) : Same b a := Eq.symm h
theorem same_trans {a b c : Name} (h : Same a b) (h' : Same b c) : Same a c := Eq.trans h h'

/-- in a list with distinct names, at most one element has a given name -/
theorem distinct_eq {α : Type} {f : α → Name} {l : List α} (h : Distinct (l.map f)) {x y : α} (hx : x ∈ l) (hy : y ∈ l) {n : Name} (h1 : Same (f x) n) (h2 : Same (f y) n) : x = y := by
  induction l with
  | nil => cases hx
  | cons z l ih =>
    simp only [Distinct, List.map_cons, List.pairwise_cons] at h
    have hno : ∀ w ∈ l, ¬ Same (f z) (f w) := fun w hw => h.1 _ (List.mem_map_of_mem hw)
    rcases List.mem_cons.1 hx with ex | hx'
    · rcases List.mem_cons.1 hy with ey | hy'
      · rw [ex, ey]
      · subst ex; exact absurd (same_trans h1 (same_symm h2)) (hno _ hy')
    · rcases List.mem_cons.1 hy with ey | hy'
      · subst ey; exact absurd (same_trans h2 (same_symm h1)) (hno _ hx')
      · exact ih h.2 hx' hy'

theorem findPeripheral_ok {ps : List Peripheral} {n : Name} {p : Peripheral} (h : findPeripheral ps n = .ok p) : p ∈ ps ∧ Same p.name n := by
  induction ps with
  | nil => cases h
  | cons q ps ih =>
    simp only [findPeripheral] at h
    split at h
    · next hs => cases h; exact ⟨List.mem_cons_self, (C96_streq _ _).1 hs⟩
    · exact ⟨List.mem_cons_of_mem _ (ih h).1, (ih h).2⟩

theorem findPeripheral_some {ps : List Peripheral} {n : Name} {p : Peripheral} (hd : Distinct (ps.map (·.name))) (hp : p ∈ ps) (hn : Same p.name n) : findPeripheral ps n = .ok p := by
  cases h : findPeripheral ps n with
  | ok q => rw [distinct_eq hd hp (findPeripheral_ok h).1 hn (findPeripheral_ok h).2]
  | error e =>
    clear hd
    induction ps with
    | nil => cases hp
    | cons q ps ih =>
      simp only [findPeripheral] at h
      split at h
      · cases h
      · next hs =>
        rcases List.mem_cons.1 hp with rfl | hp
        · exact absurd ((C96_streq _ _).2 hn) hs
        · exact absurd (ih hp h) (by simp)

theorem fieldIn_ok {fs : List Field} {n : Name} {o : Nat} (h : fieldIn fs n = .ok o) : ∃ f ∈ fs, Same f.name n ∧ f.offset = some o := by
  induction fs with
  | nil => cases h
  | cons q fs ih =>
    simp only [fieldIn] at h
    split at h
    · next hs =>
      split at h
      · next o' ho => cases h; exact ⟨q, List.mem_cons_self, (C96_streq _ _).1 hs, ho⟩
      · cases h
    · obtain ⟨f, h1, h2⟩ := ih h
      exact ⟨f, List.mem_cons_of_mem _ h1, h2⟩

theorem fieldIn_some {fs : List Field} {n : Name} {f : Field} {o : Nat} (hd : Distinct (fs.map (·.name))) (hf : f ∈ fs) (hn : Same f.name n) (ho : f.offset = some o) : fieldIn fs n = .ok o := by
  induction fs with
  | nil => cases hf
  | cons q fs ih =>
    simp only [fieldIn]
    split
    · next hs =>
      have := distinct_eq hd hf List.mem_cons_self hn ((C96_streq _ _).1 hs)
      subst this
      simp [ho]
    · next hs =>
      simp only [Distinct, List.map_cons, List.pairwise_cons] at hd
      rcases List.mem_cons.1 hf with rfl | hf
      · exact absurd ((C96_streq _ _).2 hn) hs
      · exact ih hd.2 hf

theorem fieldBit_ok {ss : List FieldSet} {sn n : Name} {o : Nat} (h : fieldBit ss sn n = .ok o) : ∃ s ∈ ss, Same s.name sn ∧ fieldIn s.fields n = .ok o := by
  induction ss with
  | nil => cases h
  | cons q ss ih =>
    simp only [fieldBit] at h
    split at h
    · next hs => exact ⟨q, List.mem_cons_self, (C96_streq _ _).1 hs, h⟩
    · obtain ⟨s, h1, h2⟩ := ih h
      exact ⟨s, List.mem_cons_of_mem _ h1, h2⟩

theorem fieldBit_eq {ss : List FieldSet} {sn n : Name} {s : FieldSet} (hd : Distinct (ss.map (·.name))) (hs : s ∈ ss) (hn : Same s.name sn) : fieldBit ss sn n = fieldIn s.fields n := by
  induction ss with
  | nil => cases hs
  | cons q ss ih =>
    simp only [fieldBit]
    split
    · next h => rw [distinct_eq hd hs List.mem_cons_self hn ((C96_streq _ _).1 h)]
    · next h =>
      simp only [Distinct, List.map_cons, List.pairwise_cons] at hd
      rcases List.mem_cons.1 hs with rfl | hs
      · exact absurd ((C96_streq _ _).2 hn) h
      · exact ih hd.2 hs

theorem itemIn_ok {address : Nat} {fss : List FieldSet} {bit : RccReg} {its : List Item} {b : RccBit} (h : itemIn address fss bit its = .ok b) :
    ∃ it ∈ its, Same it.name bit.register ∧ it.isArray = false ∧ ∃ fsn, it.inner = .register (some fsn) ∧ ∃ o, fieldBit fss fsn bit.field = .ok o ∧ address % 2 ^ 32 + it.byteOffset < 2 ^ 32 ∧ o < 32 ∧ b = ⟨address % 2 ^ 32 + it.byteOffset, 1#32 <<< o⟩ := by
  induction its with
  | nil => cases h
  | cons q its ih =>
    simp only [itemIn] at h
    split at h
    · next hs =>
      split at h
      · cases h
      · next ha =>
        split at h
        · cases h
        · cases h
        · next fsn hi =>
          split at h
          · cases h
          · next o ho =>
            split at h
            · next hc =>
              cases h
              exact ⟨q, List.mem_cons_self, (C96_streq _ _).1 hs, by simpa using ha, fsn, hi, o, ho, hc.1, hc.2, rfl⟩
            · cases h
    · obtain ⟨it, h1, h2⟩ := ih h
      exact ⟨it, List.mem_cons_of_mem _ h1, h2⟩

theorem itemIn_some {address : Nat} {fss : List FieldSet} {bit : RccReg} {its : List Item} {it : Item} {fsn : Name} {o : Nat} (hd : Distinct (its.map (·.name))) (hm : it ∈ its) (hn : Same it.name bit.register) (ha : it.isArray = false)
    (hi : it.inner = .register (some fsn)) (hf : fieldBit fss fsn bit.field = .ok o) (h1 : address % 2 ^ 32 + it.byteOffset < 2 ^ 32) (h2 : o < 32) : itemIn address fss bit its = .ok ⟨address % 2 ^ 32 + it.byteOffset, 1#32 <<< o⟩ := by
  induction its with
  | nil => cases hm
  | cons q its ih =>
    simp only [itemIn]
    split
    · next hs =>
      have := distinct_eq hd hm List.mem_cons_self hn ((C96_streq _ _).1 hs)
      subst this
      simp only [ha, Bool.false_eq_true, if_false, hi, hf, h1, h2, and_self, if_true]
    · next hs =>
      simp only [Distinct, List.map_cons, List.pairwise_cons] at hd
      rcases List.mem_cons.1 hm with rfl | hm
      · exact absurd ((C96_streq _ _).2 hn) hs
      · exact ih hd.2 hm

theorem blockIn_ok {address : Nat} {regs : Registers} {bit : RccReg} {bs : List Block} {b : RccBit} (h : blockIn address regs bit bs = .ok b) : ∃ blk ∈ bs, Same blk.name regs.block ∧ itemIn address regs.fieldsets bit blk.items = .ok b := by
  induction bs with
  | nil => cases h
  | cons q bs ih =>
    simp only [blockIn] at h
    split at h
    · next hs => exact ⟨q, List.mem_cons_self, (C96_streq _ _).1 hs, h⟩
    · obtain ⟨s, h1, h2⟩ := ih h
      exact ⟨s, List.mem_cons_of_mem _ h1, h2⟩

theorem blockIn_eq {address : Nat} {regs : Registers} {bit : RccReg} {bs : List Block} {blk : Block} (hd : Distinct (bs.map (·.name))) (hm : blk ∈ bs) (hn : Same blk.name regs.block) : blockIn address regs bit bs = itemIn address regs.fieldsets bit blk.items := by
  induction bs with
  | nil => cases hm
  | cons q bs ih =>
    simp only [blockIn]
    split
    · next h => rw [distinct_eq hd hm List.mem_cons_self hn ((C96_streq _ _).1 h)]
    · next h =>
      simp only [Distinct, List.map_cons, List.pairwise_cons] at hd
      rcases List.mem_cons.1 hm with rfl | hm
      · exact absurd ((C96_streq _ _).2 hn) h
      · exact ih hd.2 hm

/-- **C96** (lookup) What a lookup that compiles yields is an address and a bit that the metadata gives to this register and field. -/
theorem C96_lookup_sound {md : Metadata} {bit : RccReg} {b : RccBit} (h : RccBit.lookup md bit = .ok b) : ∃ k, k < 32 ∧ b.mask = 1#32 <<< k ∧ b.addr < 2 ^ 32 ∧ Denotes md bit.register bit.field b.addr k := by
  simp only [RccBit.lookup] at h
  split at h
  · cases h
  · next p hp =>
    split at h
    · cases h
    · next regs hr =>
      obtain ⟨blk, hb, hbn, hi⟩ := blockIn_ok h
      obtain ⟨it, h1, h2, h3, fsn, h4, o, h5, h6, h7, rfl⟩ := itemIn_ok hi
      obtain ⟨fs, h8, h9, h10⟩ := fieldBit_ok h5
      obtain ⟨f, h11, h12, h13⟩ := fieldIn_ok h10
      obtain ⟨hp1, hp2⟩ := findPeripheral_ok hp
      exact ⟨o, h7, rfl, h6, p, hp1, hp2, regs, hr, blk, hb, hbn, it, h1, h2, h3, fsn, h4, fs, h8, h9, f, h11, h12, h13, rfl⟩

/-- **C96** (lookup) With unambiguous metadata: the lookup compiles if and only if the metadata gives the field a bit (within 32 bits), and then it yields this bit; otherwise it is a compile-time error. -/
theorem C96_lookup_iff {md : Metadata} (hu : Unambiguous md) {bit : RccReg} {addr k : Nat} (ha : addr < 2 ^ 32) (hk : k < 32) : RccBit.lookup md bit = .ok ⟨addr, 1#32 <<< k⟩ ↔ Denotes md bit.register bit.field addr k := by
  have back : ∀ {addr k : Nat}, addr < 2 ^ 32 → k < 32 → Denotes md bit.register bit.field addr k → RccBit.lookup md bit = .ok ⟨addr, 1#32 <<< k⟩ := by
    rintro addr k ha hk ⟨p, hp, hpn, regs, hr, blk, hb, hbn, it, h1, h2, h3, fsn, h4, fs, h8, h9, f, h11, h12, h13, rfl⟩
    simp only [RccBit.lookup, findPeripheral_some hu.peripherals hp hpn, hr]
    rw [blockIn_eq (hu.blocks p hp regs hr) hb hbn]
    exact itemIn_some (hu.items p hp regs hr blk hb) h1 h2 h3 h4 (by rw [fieldBit_eq (hu.fieldsets p hp regs hr) h8 h9]; exact fieldIn_some (hu.fields p hp regs hr fs h8) h11 h12 h13) ha hk
  constructor
  · intro h
    obtain ⟨k', hk', hm, -, hd⟩ := C96_lookup_sound h
    have : k = k' := by
      have := congrArg (fun v => v.getLsbD k') hm
      simp only [BitVec.getLsbD_shiftLeft, BitVec.getLsbD_one] at this
      simp [hk'] at this
      omega
    subst this
    exact hd
  · exact back ha hk

/-- **C96** (timer) The clock-enable bit used for timer `timer` is the one the metadata names for the peripheral of this name, and so is the reset bit, if there is one. (Otherwise the lookup is a compile-time error.) -/
theorem C96_timer {md : Metadata} {timer : Name} {t : TimerRcc} (h : TimerRcc.lookup md timer = .ok t) :
    ∃ p ∈ md.peripherals, Same p.name timer ∧ ∃ rcc, p.rcc = some rcc ∧ (∃ en, rcc.enable = some en ∧ RccBit.lookup md en = .ok t.enable) ∧
      (match rcc.reset with | some r => ∃ b, t.reset = some b ∧ RccBit.lookup md r = .ok b | none => t.reset = none) := by
  simp only [TimerRcc.lookup] at h
  split at h
  · cases h
  · next p hp =>
    split at h
    · cases h
    · next rcc hr =>
      split at h
      · cases h
      · next en hen =>
        split at h
        · cases h
        · next e he =>
          obtain ⟨hp1, hp2⟩ := findPeripheral_ok hp
          split at h
          · next hre =>
            cases h
            exact ⟨p, hp1, hp2, rcc, hr, ⟨en, hen, he⟩, by rw [hre]⟩
          · next r hre =>
            split at h
            · cases h
            · next b hb =>
              cases h
              exact ⟨p, hp1, hp2, rcc, hr, ⟨en, hen, he⟩, by rw [hre]; exact ⟨b, rfl, hb⟩⟩

/-- **C96** (timer) With unambiguous metadata the lookup compiles for every timer that has an entry with an enable bit, whose bits are described. -/
theorem C96_timer_compiles {md : Metadata} (hu : Unambiguous md) {timer : Name} {p : Peripheral} (hp : p ∈ md.peripherals) (hn : Same p.name timer) {rcc : RccInfo} (hr : p.rcc = some rcc) {en : RccReg} (he : rcc.enable = some en)
    {addr k : Nat} (ha : addr < 2 ^ 32) (hk : k < 32) (hd : Denotes md en.register en.field addr k) (hreset : ∀ r, rcc.reset = some r → ∃ addr k, addr < 2 ^ 32 ∧ k < 32 ∧ Denotes md r.register r.field addr k) :
    ∃ t, TimerRcc.lookup md timer = .ok t ∧ t.enable = ⟨addr, 1#32 <<< k⟩ := by
  simp only [TimerRcc.lookup, findPeripheral_some hu.peripherals hp hn, hr, he, (C96_lookup_iff hu ha hk).2 hd]
  cases h : rcc.reset with
  | none => exact ⟨_, rfl, rfl⟩
  | some r =>
    obtain ⟨a, j, h1, h2, h3⟩ := hreset r h
    simp only [(C96_lookup_iff hu h1 h2).2 h3]
    exact ⟨_, rfl, rfl⟩

/-! ## Run time -/

/-- the single bit `k` -/
def IsBit (b : RccBit) (k : Nat) : Prop := k < 32 ∧ b.mask = 1#32 <<< k

theorem or_bit {v : BitVec 32} {k i : Nat} (hk : k < 32) : (v ||| 1#32 <<< k).getLsbD i = if i = k then true else v.getLsbD i := by
  simp only [BitVec.getLsbD_or, BitVec.getLsbD_shiftLeft, BitVec.getLsbD_one]
  by_cases e : i = k
  · subst e; simp [hk]
  · simp only [e, if_false]
    by_cases h1 : i < k
    · simp [h1]
    · have : i - k ≠ 0 := by omega
      simp [this]

theorem andNot_bit {v : BitVec 32} {k i : Nat} (hk : k < 32) : (v &&& ~~~(1#32 <<< k)).getLsbD i = if i = k then false else v.getLsbD i := by
  simp only [BitVec.getLsbD_and, BitVec.getLsbD_not, BitVec.getLsbD_shiftLeft, BitVec.getLsbD_one]
  by_cases e : i = k
  · subst e; simp
  · simp only [e, if_false]
    by_cases h1 : i < 32
    · by_cases h2 : i < k
      · simp [h1, h2]
      · have : i - k ≠ 0 := by omega
        simp [h1, h2, this]
    · simp [BitVec.getLsbD_of_ge v i (by omega)]

/-- what `RccBit::set` writes -/
def put (b : RccBit) (on : Bool) (v : BitVec 32) : BitVec 32 := if on then v ||| b.mask else v &&& ~~~b.mask

/-- no other code writes the word at `a` -/
def Alone (a : Nat) (tr : List Ev) : Prop := ∀ w, .other a w ∉ tr

/-- the execution up to the next access of the code -/
theorem next_own {s s' : St} {tr : List Ev} (h : Exec s tr s') (hl : s.left ≠ []) (hl' : s'.left = []) :
    ∃ tr1 s1 e s2 tr2, tr = tr1 ++ (e ++ tr2) ∧ (∀ x ∈ tr1, ∃ a w, x = .other a w) ∧ s1.left = s.left ∧ s1.val = s.val ∧ (∀ a, Alone a tr1 → s1.mem a = s.mem a) ∧ Step s1 e s2 ∧ (∀ a w, e ≠ [.other a w]) ∧ Exec s2 tr2 s' := by
  induction h with
  | nil s => exact absurd hl' hl
  | @cons s sm s' e tr hs hx ih =>
    cases hs with
    | read addr rest h => exact ⟨[], s, _, _, tr, rfl, by simp, rfl, rfl, fun _ _ => rfl, .read s addr rest h, by simp, hx⟩
    | write addr mask on rest h => exact ⟨[], s, _, _, tr, rfl, by simp, rfl, rfl, fun _ _ => rfl, .write s addr mask on rest h, by simp, hx⟩
    | other addr v =>
      obtain ⟨tr1, s1, e, s2, tr2, rfl, h2, h3, h4, h5, h6, h7, h8⟩ := ih hl hl'
      refine ⟨.other addr v :: tr1, s1, e, s2, tr2, rfl, ?_, h3, h4, ?_, h6, h7, h8⟩
      · intro x hx
        rcases List.mem_cons.1 hx with rfl | hx
        · exact ⟨_, _, rfl⟩
        · exact h2 x hx
      · intro a ha
        have : a ≠ addr := by rintro rfl; exact ha v List.mem_cons_self
        rw [h5 a (fun w hw => ha w (List.mem_cons_of_mem _ hw))]
        simp [upd, this]

theorem alone_app {a : Nat} {l r : List Ev} : Alone a (l ++ r) ↔ Alone a l ∧ Alone a r := by
  simp only [Alone, List.mem_append, not_or]
  exact ⟨fun h => ⟨fun w => (h w).1, fun w => (h w).2⟩, fun h w => ⟨h.1 w, h.2 w⟩⟩

/-- one `RccBit::set` -/
theorem set_spec {s s' : St} {tr : List Ev} {b : RccBit} {on : Bool} {rest : List Acc} (h : Exec s tr s') (hl : s.left = b.set on ++ rest) (hl' : s'.left = []) :
    ∃ tr1 tr2 s1 v, tr = tr1 ++ .own b.addr v :: tr2 ∧ (∀ x ∈ tr1, ∃ a w, x = .other a w) ∧ s1.left = rest ∧ Exec s1 tr2 s' ∧ s1.mem b.addr = v ∧ (∀ a, a ≠ b.addr → Alone a tr1 → s1.mem a = s.mem a) ∧ (Alone b.addr tr1 → v = put b on (s.mem b.addr)) := by
  obtain ⟨tr1, s1, e1, s2, tr2, rfl, h2, h3, h4, h5, h6, h7, h8⟩ := next_own h (by rw [hl]; simp [RccBit.set]) hl'
  rw [hl] at h3
  cases h6 with
  | write addr mask on' rest' hw => rw [h3] at hw; cases hw
  | other addr v => exact absurd rfl (h7 _ _)
  | read addr rest' hr =>
    rw [h3] at hr
    simp only [RccBit.set, List.cons_append, List.nil_append, List.cons.injEq, Acc.read.injEq] at hr
    obtain ⟨rfl, rfl⟩ := hr
    obtain ⟨tr3, s3, e3, s4, tr4, rfl, k2, k3, k4, k5, k6, k7, k8⟩ := next_own h8 (by simp) hl'
    simp only at k3 k4 k5
    cases k6 with
    | read addr rest' hr => rw [k3] at hr; cases hr
    | other addr v => exact absurd rfl (k7 _ _)
    | write addr mask on' rest' hw =>
      rw [k3] at hw
      simp only [List.cons.injEq, Acc.write.injEq] at hw
      obtain ⟨⟨rfl, rfl, rfl⟩, rfl⟩ := hw
      refine ⟨tr1 ++ tr3, tr4, _, put b on s3.val, by simp [put], ?_, rfl, k8, by simp [upd, put], ?_, ?_⟩
      · intro x hx
        rcases List.mem_append.1 hx with hx | hx
        · exact h2 x hx
        · exact k2 x hx
      · intro a ha hal
        rw [alone_app] at hal
        show upd s3.mem b.addr _ a = _
        simp only [upd, ha, if_false]
        rw [k5 a hal.2, h5 a hal.1]
      · intro hal
        rw [alone_app] at hal
        rw [k4, h5 _ hal.1]

/-- The code has run from `s` to `s'`, and other code has not written the two registers meanwhile. -/
structure Started (t : TimerRcc) (s s' : St) (tr : List Ev) : Prop where
  exec : Exec s tr s'
  begin_ : s.left = t.start
  done : s'.left = []
  alone : Alone t.enable.addr tr
  aloneR : ∀ r, t.reset = some r → Alone r.addr tr

/-- the rest of the execution contains writes of other code only -/
theorem only_others {s s' : St} {tr : List Ev} (h : Exec s tr s') (hl : s.left = []) : (∀ x ∈ tr, ∃ a w, x = .other a w) ∧ ∀ a, Alone a tr → s'.mem a = s.mem a := by
  induction h with
  | nil s => simp
  | @cons s sm s' e tr hs hx ih =>
    cases hs with
    | read addr rest h => rw [hl] at h; cases h
    | write addr mask on rest h => rw [hl] at h; cases h
    | other addr v =>
      obtain ⟨k1, k2⟩ := ih hl
      refine ⟨?_, ?_⟩
      · intro x hx
        rcases List.mem_cons.1 hx with rfl | hx
        · exact ⟨_, _, rfl⟩
        · exact k1 x hx
      · intro a ha
        have : a ≠ addr := by rintro rfl; exact ha v List.mem_cons_self
        rw [k2 a (fun w hw => ha w (List.mem_cons_of_mem _ hw))]
        simp [upd, this]

theorem put_bit {b : RccBit} {k i : Nat} (hb : IsBit b k) (on : Bool) (v : BitVec 32) : (put b on v).getLsbD i = if i = k then on else v.getLsbD i := by
  obtain ⟨hk, hm⟩ := hb
  unfold put
  cases on
  · simp only [Bool.false_eq_true, if_false, hm]; exact andNot_bit hk
  · simp only [if_true, hm]; exact or_bit hk

/-- **C96** (run time, with reset bit) After `enable` and `reset` the clock of the timer is enabled and its reset is released; the reset was asserted in between, after the clock had been enabled; all other bits of the two registers are as before, and no other word was written by this code. -/
theorem C96_started {t : TimerRcc} {r : RccBit} (hr : t.reset = some r) {s s' : St} {tr : List Ev} (h : Started t s s' tr) {k j : Nat} (hk : IsBit t.enable k) (hj : IsBit r j) (hne : ¬ (t.enable.addr = r.addr ∧ k = j)) :
    bitAt s'.mem t.enable.addr k = true ∧ bitAt s'.mem r.addr j = false ∧
    (∀ i, i ≠ k → (t.enable.addr = r.addr → i ≠ j) → bitAt s'.mem t.enable.addr i = bitAt s.mem t.enable.addr i) ∧
    (∀ i, i ≠ j → (t.enable.addr = r.addr → i ≠ k) → bitAt s'.mem r.addr i = bitAt s.mem r.addr i) ∧
    (∀ a v, .own a v ∈ tr → a = t.enable.addr ∨ a = r.addr) ∧ (∀ a, a ≠ t.enable.addr → a ≠ r.addr → Alone a tr → s'.mem a = s.mem a) ∧
    ∃ tr1 v1 tr2 v2 tr3, tr = tr1 ++ .own t.enable.addr v1 :: (tr2 ++ .own r.addr v2 :: tr3) ∧ v1.getLsbD k = true ∧ v2.getLsbD j = true := by
  obtain ⟨hx, hb, hd, ha, haR⟩ := h
  have haR := haR r hr
  simp only [TimerRcc.start, hr] at hb
  obtain ⟨tr1, q1, s1, v1, rfl, o1, l1, x1, m1, u1, p1⟩ := set_spec hx hb hd
  obtain ⟨tr2, q2, s2, v2, rfl, o2, l2, x2, m2, u2, p2⟩ := set_spec x1 l1 hd
  obtain ⟨tr3, q3, s3, v3, rfl, o3, l3, x3, m3, u3, p3⟩ := set_spec x2 (by rw [l2]; exact (List.append_nil _).symm) hd
  obtain ⟨o4, u4⟩ := only_others x3 l3
  have al : ∀ {a : Nat}, Alone a (tr1 ++ .own t.enable.addr v1 :: (tr2 ++ .own r.addr v2 :: (tr3 ++ .own r.addr v3 :: q3))) → Alone a tr1 ∧ Alone a tr2 ∧ Alone a tr3 ∧ Alone a q3 := by
    intro a h
    refine ⟨fun w hw => h w ?_, fun w hw => h w ?_, fun w hw => h w ?_, fun w hw => h w ?_⟩ <;> simp [hw]
  obtain ⟨a1, a2, a3, a4⟩ := al ha
  obtain ⟨b1, b2, b3, b4⟩ := al haR
  have e1 := p1 a1
  have e2 := p2 b2
  have e3 := p3 b3
  -- the final words
  have fr : s'.mem r.addr = put r false (put r true (s1.mem r.addr)) := by rw [u4 _ b4, m3, e3, m2, e2]
  have fe : t.enable.addr ≠ r.addr → s'.mem t.enable.addr = put t.enable true (s.mem t.enable.addr) := by
    intro hne; rw [u4 _ a4, u3 _ hne a3, u2 _ hne a2, m1, e1]
  have f1 : t.enable.addr ≠ r.addr → s1.mem r.addr = s.mem r.addr := fun hne => u1 _ (Ne.symm hne) b1
  have f2 : t.enable.addr = r.addr → s1.mem r.addr = put t.enable true (s.mem r.addr) := by intro e; rw [← e, m1, e1]
  refine ⟨?_, ?_, ?_, ?_, ?_, ?_, tr1, v1, tr2, v2, tr3 ++ .own r.addr v3 :: q3, rfl, ?_, ?_⟩
  · by_cases e : t.enable.addr = r.addr
    · have hkj : k ≠ j := fun h => hne ⟨e, h⟩
      simp only [bitAt]
      rw [e, fr, f2 e, put_bit hj, put_bit hj, put_bit hk]
      simp [hkj]
    · simp only [bitAt]; rw [fe e, put_bit hk]; simp
  · simp only [bitAt]; rw [fr, put_bit hj]; simp
  · intro i h1 h2
    by_cases e : t.enable.addr = r.addr
    · simp only [bitAt]
      rw [e, fr, f2 e, put_bit hj, put_bit hj, put_bit hk]
      simp [h1, h2 e]
    · simp only [bitAt]; rw [fe e, put_bit hk]; simp [h1]
  · intro i h1 h2
    by_cases e : t.enable.addr = r.addr
    · simp only [bitAt]
      rw [fr, f2 e, put_bit hj, put_bit hj, put_bit hk]
      simp [h1, h2 e]
    · simp only [bitAt]; rw [fr, f1 e, put_bit hj, put_bit hj]; simp [h1]
  · intro a v hm
    simp only [List.mem_append, List.mem_cons] at hm
    have no : ∀ {l : List Ev}, (∀ x ∈ l, ∃ a w, x = .other a w) → .own a v ∉ l := by
      intro l hl hm; obtain ⟨_, _, h⟩ := hl _ hm; cases h
    rcases hm with hm | hm | hm | hm | hm | hm | hm
    · exact absurd hm (no o1)
    · cases hm; exact .inl rfl
    · exact absurd hm (no o2)
    · cases hm; exact .inr rfl
    · exact absurd hm (no o3)
    · cases hm; exact .inr rfl
    · exact absurd hm (no o4)
  · intro a h1 h2 hal
    obtain ⟨c1, c2, c3, c4⟩ := al hal
    rw [u4 _ c4, u3 _ h2 c3, u2 _ h2 c2, u1 _ h1 c1]
  · rw [e1, put_bit hk]; simp
  · rw [e2, put_bit hj]; simp

/-- **C96** (run time, no reset bit) The clock of the timer is enabled, and nothing else is changed. -/
theorem C96_started_noReset {t : TimerRcc} (hr : t.reset = none) {s s' : St} {tr : List Ev} (h : Started t s s' tr) {k : Nat} (hk : IsBit t.enable k) :
    bitAt s'.mem t.enable.addr k = true ∧ (∀ i, i ≠ k → bitAt s'.mem t.enable.addr i = bitAt s.mem t.enable.addr i) ∧ (∀ a v, .own a v ∈ tr → a = t.enable.addr) ∧ (∀ a, a ≠ t.enable.addr → Alone a tr → s'.mem a = s.mem a) := by
  obtain ⟨hx, hb, hd, ha, -⟩ := h
  simp only [TimerRcc.start, hr] at hb
  obtain ⟨tr1, q1, s1, v1, rfl, o1, l1, x1, m1, u1, p1⟩ := set_spec hx hb hd
  obtain ⟨o4, u4⟩ := only_others x1 l1
  have al : ∀ {a : Nat}, Alone a (tr1 ++ .own t.enable.addr v1 :: q1) → Alone a tr1 ∧ Alone a q1 := by
    intro a h
    refine ⟨fun w hw => h w ?_, fun w hw => h w ?_⟩ <;> simp [hw]
  obtain ⟨a1, a2⟩ := al ha
  have f : s'.mem t.enable.addr = put t.enable true (s.mem t.enable.addr) := by rw [u4 _ a2, m1, p1 a1]
  refine ⟨?_, ?_, ?_, ?_⟩
  · simp only [bitAt]; rw [f, put_bit hk]; simp
  · intro i h1; simp only [bitAt]; rw [f, put_bit hk]; simp [h1]
  · intro a v hm
    simp only [List.mem_append, List.mem_cons] at hm
    have no : ∀ {l : List Ev}, (∀ x ∈ l, ∃ a w, x = .other a w) → .own a v ∉ l := by
      intro l hl hm; obtain ⟨_, _, h⟩ := hl _ hm; cases h
    rcases hm with hm | hm | hm
    · exact absurd hm (no o1)
    · cases hm; rfl
    · exact absurd hm (no o4)
  · intro a h1 hal
    obtain ⟨c1, c2⟩ := al hal
    rw [u4 _ c2, u1 _ h1 c1]

/-- **C96** (run time) The accesses can always be carried out, and need nobody else. -/
theorem C96_completes (t : TimerRcc) (mem : Nat → BitVec 32) (v : BitVec 32) : ∃ s' tr, Exec ⟨mem, v, t.start⟩ tr s' ∧ s'.left = [] ∧ (∀ x ∈ tr, ∃ a w, x = .own a w) := by
  have gen : ∀ (l : List Acc) (mem : Nat → BitVec 32) (v : BitVec 32), ∃ s' tr, Exec ⟨mem, v, l⟩ tr s' ∧ s'.left = [] ∧ (∀ x ∈ tr, ∃ a w, x = .own a w) := by
    intro l
    induction l with
    | nil => intro mem v; exact ⟨_, _, .nil _, rfl, by simp⟩
    | cons x l ih =>
      intro mem v
      cases x with
      | read addr =>
        obtain ⟨s', tr, h1, h2, h3⟩ := ih mem (mem addr)
        exact ⟨s', _, .cons (.read ⟨mem, v, .read addr :: l⟩ addr l rfl) h1, h2, h3⟩
      | write addr mask on =>
        obtain ⟨s', tr, h1, h2, h3⟩ := ih (upd mem addr (if on then v ||| mask else v &&& ~~~mask)) v
        refine ⟨s', _, .cons (.write ⟨mem, v, .write addr mask on :: l⟩ addr mask on l rfl) h1, h2, ?_⟩
        intro x hx
        rcases List.mem_cons.1 hx with rfl | hx
        · exact ⟨_, _, rfl⟩
        · exact h3 x hx
  exact gen _ mem v

/-- **C96** The condition on other code is needed: an update of the same register by an interrupt between the read and the write is lost. (`init` runs with interrupts disabled, C53; a monotonic started later is not protected.) -/
theorem C96_not_atomic : ∃ (t : TimerRcc) (s s' : St) (tr : List Ev) (v : BitVec 32), Exec s tr s' ∧ s.left = t.start ∧ s'.left = [] ∧ IsBit t.enable 0 ∧ t.reset = none ∧ .other t.enable.addr v ∈ tr ∧ (∀ w, .other t.enable.addr w ∈ tr → w = v) ∧
    v.getLsbD 5 = true ∧ bitAt s'.mem t.enable.addr 5 = false := by
  refine ⟨⟨⟨64, 1#32⟩, none⟩, ⟨fun _ => 0#32, 0#32, _⟩, _, _, 32#32, .cons (.read _ 64 _ rfl) (.cons (.other _ 64 32#32) (.cons (.write _ 64 1#32 true [] rfl) (.nil _))), rfl, rfl, ⟨by decide, by decide⟩, rfl, by simp, by simp, by decide, by decide⟩

/-! ## Example -/

def str (s : String) : Name := s.toUTF8.data.toList

/-- a chip with a timer whose bits are in two registers; register names in upper case in the timer's entry and in lower case in the register description -/
def exMd : Metadata :=
  { peripherals := [
      { name := str "TIM2", address := 0x40000000, rcc := some { enable := some ⟨str "APB1ENR", str "TIM2EN"⟩, reset := some ⟨str "APB1RSTR", str "TIM2RST"⟩ }, registers := none },
      { name := str "RCC", address := 0x40023800, rcc := none, registers := some {
          block := str "RCC",
          blocks := [{ name := str "rcc", items := [
            { name := str "apb1rstr", isArray := false, byteOffset := 0x20, inner := .register (some (str "Apb1rstr")) },
            { name := str "apb1enr", isArray := false, byteOffset := 0x40, inner := .register (some (str "Apb1enr")) }] }],
          fieldsets := [{ name := str "Apb1enr", fields := [⟨str "tim2en", some 0⟩, ⟨str "tim3en", some 1⟩] }, { name := str "Apb1rstr", fields := [⟨str "tim2rst", some 0⟩] }] } }] }

instance {ε α : Type} [DecidableEq ε] [DecidableEq α] : DecidableEq (Except ε α)
  | .ok a, .ok b => if h : a = b then isTrue (by rw [h]) else isFalse (by intro e; cases e; exact h rfl)
  | .error a, .error b => if h : a = b then isTrue (by rw [h]) else isFalse (by intro e; cases e; exact h rfl)
  | .ok _, .error _ => isFalse (by intro e; cases e)
  | .error _, .ok _ => isFalse (by intro e; cases e)

def exTimer : TimerRcc := { enable := ⟨0x40023840, 1#32⟩, reset := some ⟨0x40023820, 1#32⟩ }

-- the lookups succeed, for a name in any case; names that are missing do not compile
example : TimerRcc.lookup exMd (str "TIM2") = .ok exTimer ∧ TimerRcc.lookup exMd (str "tim2") = .ok exTimer := by
  constructor <;> decide +kernel
example : TimerRcc.lookup exMd (str "TIM3") = .error .noPeripheral ∧ TimerRcc.lookup exMd (str "TIM") = .error .noPeripheral ∧ TimerRcc.lookup exMd (str "RCC") = .error .timerNoRcc := by
  refine ⟨?_, ?_, ?_⟩ <;> decide +kernel

theorem same_dec (a b : Name) : Same a b ↔ a.map lower = b.map lower := Iff.rfl
instance (a b : Name) : Decidable (Same a b) := by unfold Same; infer_instance
instance (l : List Name) : Decidable (Distinct l) := by unfold Distinct; infer_instance

theorem exMd_unambiguous : Unambiguous exMd := by
  have regs : ∀ p ∈ exMd.peripherals, ∀ r, p.registers = some r → (Distinct (r.blocks.map (·.name)) ∧ (∀ b ∈ r.blocks, Distinct (b.items.map (·.name)))) ∧ Distinct (r.fieldsets.map (·.name)) ∧ ∀ fs ∈ r.fieldsets, Distinct (fs.fields.map (·.name)) := by
    intro p hp r hr
    simp only [exMd, List.mem_cons, List.not_mem_nil, or_false] at hp
    rcases hp with rfl | rfl
    · cases hr
    · cases hr; decide +kernel
  exact ⟨by decide +kernel, fun p hp r hr => (regs p hp r hr).1.1, fun p hp r hr => (regs p hp r hr).1.2, fun p hp r hr => (regs p hp r hr).2.1, fun p hp r hr => (regs p hp r hr).2.2⟩

/-- the hypotheses of `C96_started` are met by a run in which other code writes a third register -/
example : ∃ s s' tr, Started exTimer s s' tr ∧ IsBit exTimer.enable 0 ∧ ∃ v, .other 7 v ∈ tr := by
  refine ⟨⟨fun _ => 5#32, 0#32, exTimer.start⟩, _, _, ⟨.cons (.read _ 0x40023840 _ rfl) (.cons (.other _ 7 9#32) (.cons (.write _ 0x40023840 1#32 true _ rfl) (.cons (.read _ 0x40023820 _ rfl) (.cons (.write _ 0x40023820 1#32 true _ rfl)
    (.cons (.read _ 0x40023820 _ rfl) (.cons (.write _ 0x40023820 1#32 false [] rfl) (.nil _))))))), rfl, rfl, ?_, ?_⟩, ⟨by decide, by decide⟩, 9#32, by simp⟩
  · intro w; simp [exTimer]
  · intro r hr w; cases hr; simp

end Verif.Rcc
