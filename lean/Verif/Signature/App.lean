import Verif.Signature.Lemmas

/-! # The loop over the items and its reading -/

namespace Verif.Signature
open Verif.Analysis (Ident TaskArg Res Err err Map HwTask SwTask PSt SharedRes Item has initArgs idleArgs taskArgs checkIdent checkBinding insertNew parseDispatchers parseItem bind_ok bind_eq foldlM_ok_append)

theorem decide_iff (p : Prop) [Decidable p] : (decide p = true ↔ p) := by simp

theorem tail_nil_of_hardware {f : Fn} (h : HardwareForm f) : f.inputs.tail = [] := by
  obtain ⟨c, args, h1, -⟩ := h.inputs
  rw [h1]; rfl

open Classical in
/-- What is accepted as a function is one of the items, and is handled like it. -/
theorem fnItem_reads {code : Ty → Analysis.Ty} {ext : Bool} {s s' : SSt} {f : Fn} (h : fnItem code ext s f = .ok s') : ∃ i, ReadsFn code ext f i ∧ parseItem s.p i = .ok s'.p := by
  unfold fnItem at h
  split at h
  · next a ha =>
    obtain ⟨l, hl, h⟩ := bind_ok h
    split at h
    · cases h
    · next hn =>
      obtain ⟨p, hp, h⟩ := bind_ok h
      split at h
      · next d us ul hd =>
        cases h
        have hf := init_attrs.mp (init_iff.mp ⟨d, hd⟩)
        refine ⟨.init f.name (argsOf a) true us ul, .init (marked_iff.mpr ⟨a, ha, rfl⟩) (iff_of_true rfl hf), ?_⟩
        simp only [parseItem, bind_eq hl, if_neg hn, bind_eq hp, if_true]; rfl
      · cases h
  · next hi =>
    split at h
    · next a ha =>
      obtain ⟨⟨sh, l⟩, hl, h⟩ := bind_ok h
      simp only at h
      split at h
      · cases h
      · next hn =>
        obtain ⟨p, hp, h⟩ := bind_ok h
        split at h
        · next d hd =>
          cases h
          have hf := idle_attrs.mp (idle_iff.mp ⟨d, hd⟩)
          refine ⟨.idle f.name (argsOf a) true, .idle (unmarked_iff.mpr hi) (marked_iff.mpr ⟨a, ha, rfl⟩) (iff_of_true rfl hf), ?_⟩
          simp only [parseItem, bind_eq hl, if_neg hn, bind_eq hp, if_true]; rfl
        · cases h
    · next hid =>
      split at h
      · next a ha =>
        split at h
        · cases h
        · next hnew =>
          split at h
          · cases h
          · next hlen =>
            have hlen' : ext = true → f.attrs.length = 1 := by
              intro he
              rw [he] at hlen
              simpa using hlen
            obtain ⟨t, ht, h⟩ := bind_ok h
            cases t with
            | inl t =>
              simp only at h
              obtain ⟨p, hp, h⟩ := bind_ok h
              obtain ⟨p2, hp2, h⟩ := bind_ok h
              split at h
              · next d hd =>
                cases h
                have hf := hardware_attrs.mp (hardware_iff.mp ⟨d, hd⟩)
                refine ⟨.task f.name (argsOf a) f.isAsync [] true, .hardware (b := t.binds) (unmarked_iff.mpr hi) (unmarked_iff.mpr hid) (marked_iff.mpr ⟨a, ha, rfl⟩) hlen' (Analysis.taskArgs_hw ht).1
                  (iff_of_true rfl hf) (by simp [tail_nil_of_hardware hf]), ?_⟩
                simp only [parseItem, if_neg hnew, bind_eq ht, bind_eq hp, bind_eq hp2, hf.sync]; rfl
              · cases h
            | inr t =>
              simp only at h
              obtain ⟨p, hp, h⟩ := bind_ok h
              split at h
              · next d hd =>
                cases h
                have hf := software_attrs.mp (software_iff.mp ⟨d, hd⟩)
                have hfur0 := software_def hd
                have hfur : FurtherInputs f d.inputs := hfur0
                refine ⟨.task f.name (argsOf a) f.isAsync (d.inputs.map fun i => code i.2) true, .software (unmarked_iff.mpr hi) (unmarked_iff.mpr hid) (marked_iff.mpr ⟨a, ha, rfl⟩) hlen' (Analysis.taskArgs_sw ht).1
                  (iff_of_true rfl hf) ?_, ?_⟩
                · intro l hl
                  have : d.inputs = l := by
                    have h1 := typedAll_iff.mpr hfur
                    have h2 := typedAll_iff.mpr hl
                    rw [h1] at h2; cases h2; rfl
                  rw [this]
                · have ht' := taskArgs_ins (ins := d.inputs.map fun i => code i.2).mpr ⟨_, ht, rfl⟩
                  simp only [parseItem, if_neg hnew, bind_eq ht', bind_eq hp, hf.async]; rfl
              · cases h
      · next hta =>
        split at h
        · cases h
        · next hext =>
          cases h
          exact ⟨.other, .other (by simpa using hext) (unmarked_iff.mpr hi) (unmarked_iff.mpr hid) (unmarked_iff.mpr hta), rfl⟩

/-- Conversely. -/
theorem reads_fnItem {code : Ty → Analysis.Ty} {ext : Bool} {s : SSt} {p' : PSt} {f : Fn} {i : Item} (hr : ReadsFn code ext f i) (h : parseItem s.p i = .ok p') :
    ∃ s', fnItem code ext s f = .ok s' ∧ s'.p = p' := by
  cases hr with
  | @init args ok us ul hm hok =>
    obtain ⟨a, ha, rfl⟩ := marked_iff.mp hm
    simp only [parseItem] at h
    obtain ⟨l, hl, h⟩ := bind_ok h
    split at h
    · cases h
    · next hn =>
      obtain ⟨p, hp, h⟩ := bind_ok h
      split at h
      · next ht =>
        cases h
        obtain ⟨d, hd⟩ := (init_iff (ext := ext)).mpr ((init_attrs (as := f.attrs.eraseP (attrEq · Kw.init))).mpr (hok.mp ht))
        refine ⟨⟨_, s.defs ++ [d]⟩, ?_, rfl⟩
        simp only [fnItem, ha, bind_eq hl, if_neg hn, bind_eq hp, hd]; rfl
      · cases h
  | @idle args ok hi hm hok =>
    obtain ⟨a, ha, rfl⟩ := marked_iff.mp hm
    have hi' := unmarked_iff.mp hi
    simp only [parseItem] at h
    obtain ⟨⟨sh, l⟩, hl, h⟩ := bind_ok h
    simp only at h
    split at h
    · cases h
    · next hn =>
      obtain ⟨p, hp, h⟩ := bind_ok h
      split at h
      · next ht =>
        cases h
        obtain ⟨d, hd⟩ := (idle_iff (ext := ext)).mpr ((idle_attrs (as := f.attrs.eraseP (attrEq · Kw.idle))).mpr (hok.mp ht))
        refine ⟨⟨_, s.defs ++ [d]⟩, ?_, rfl⟩
        simp only [fnItem, hi', ha, bind_eq hl, if_neg hn, bind_eq hp, hd]; rfl
      · cases h
  | @hardware args ok ins b hi hid hm hlen hb hok hins =>
    obtain ⟨a, ha, rfl⟩ := marked_iff.mp hm
    have hi' := unmarked_iff.mp hi
    have hid' := unmarked_iff.mp hid
    have hlen' : ¬ (ext && f.attrs.length != 1) = true := by
      intro hh
      simp only [Bool.and_eq_true, bne_iff_ne, ne_eq] at hh
      exact hh.2 (hlen hh.1)
    simp only [parseItem] at h
    split at h
    · cases h
    · next hnew =>
      obtain ⟨t, ht, h⟩ := bind_ok h
      cases t with
      | inr t => exact absurd hb ((Analysis.taskArgs_sw ht).1 b)
      | inl t =>
        simp only at h
        obtain ⟨p, hp, h⟩ := bind_ok h
        obtain ⟨p2, hp2, h⟩ := bind_ok h
        split at h
        · next hc =>
          cases h
          simp only [Bool.and_eq_true] at hc
          obtain ⟨d, hd⟩ := (hardware_iff (ext := ext)).mpr ((hardware_attrs (as := f.attrs.eraseP (attrEq · Kw.task))).mpr (hok.mp hc.1.1))
          obtain ⟨t0, ht0, he⟩ := taskArgs_ins.mp ht
          cases t0 with
          | inr t0 => cases he
          | inl t0 =>
            simp only [Sum.inl.injEq] at he
            subst he
            refine ⟨⟨_, s.defs ++ [d]⟩, ?_, rfl⟩
            simp only [fnItem, hi', hid', ha, if_neg hnew, if_neg hlen', bind_eq ht0, bind_eq hp, bind_eq hp2, hd]; rfl
        · cases h
  | @software args ok ins hi hid hm hlen hb hok hins =>
    obtain ⟨a, ha, rfl⟩ := marked_iff.mp hm
    have hi' := unmarked_iff.mp hi
    have hid' := unmarked_iff.mp hid
    have hlen' : ¬ (ext && f.attrs.length != 1) = true := by
      intro hh
      simp only [Bool.and_eq_true, bne_iff_ne, ne_eq] at hh
      exact hh.2 (hlen hh.1)
    simp only [parseItem] at h
    split at h
    · cases h
    · next hnew =>
      obtain ⟨t, ht, h⟩ := bind_ok h
      cases t with
      | inl t => exact absurd (Analysis.taskArgs_hw ht).1 (hb _)
      | inr t =>
        simp only at h
        obtain ⟨p, hp, h⟩ := bind_ok h
        split at h
        · next hc =>
          cases h
          simp only [Bool.and_eq_true] at hc
          obtain ⟨d, hd⟩ := (software_iff (ext := ext)).mpr ((software_attrs (as := f.attrs.eraseP (attrEq · Kw.task))).mpr (hok.mp hc.1))
          obtain ⟨t0, ht0, he⟩ := taskArgs_ins.mp ht
          cases t0 with
          | inl t0 => cases he
          | inr t0 =>
            simp only [Sum.inr.injEq] at he
            subst he
            have hfur0 := software_def hd
            have hin := hins d.inputs hfur0
            subst hin
            refine ⟨⟨_, s.defs ++ [d]⟩, ?_, rfl⟩
            simp only [fnItem, hi', hid', ha, if_neg hnew, if_neg hlen', bind_eq ht0, bind_eq hp, hd]; rfl
        · cases h
  | other he hi hid hta =>
    simp only [parseItem] at h
    cases h
    refine ⟨s, ?_, rfl⟩
    subst he
    simp only [fnItem, unmarked_iff.mp hi, unmarked_iff.mp hid, unmarked_iff.mp hta]; rfl

/-! ## extern blocks -/

theorem foldl_cons {α β : Type} {g : β → α → Res β} {a : α} {l : List α} {b c : β} : (a :: l).foldlM g b = .ok c ↔ ∃ d, g b a = .ok d ∧ l.foldlM g d = .ok c := by
  rw [List.foldlM_cons]
  constructor
  · exact bind_ok
  · rintro ⟨d, h1, h2⟩; rw [bind_eq h1]; exact h2

theorem foldl_append {α β : Type} {g : β → α → Res β} {l l' : List α} {b c : β} : (l ++ l').foldlM g b = .ok c ↔ ∃ d, l.foldlM g b = .ok d ∧ l'.foldlM g d = .ok c := foldlM_ok_append

theorem foreign_reads {code : Ty → Analysis.Ty} {fs : List FItem} {s s' : SSt} (h : fs.foldlM (foreignItem code) s = .ok s') : ∃ is, ReadsForeign code fs is ∧ is.foldlM parseItem s.p = .ok s'.p := by
  induction fs generalizing s with
  | nil => cases h; exact ⟨[], .nil, rfl⟩
  | cons f fs ih =>
    obtain ⟨s1, h1, h2⟩ := foldl_cons.mp h
    cases f with
    | other => cases h1
    | fn f =>
      obtain ⟨i, hi, hp⟩ := fnItem_reads h1
      obtain ⟨is, his, hps⟩ := ih h2
      exact ⟨i :: is, .cons hi his, foldl_cons.mpr ⟨_, hp, hps⟩⟩

theorem reads_foreign {code : Ty → Analysis.Ty} {fs : List FItem} {is : List Item} (hr : ReadsForeign code fs is) {s : SSt} {p' : PSt} (h : is.foldlM parseItem s.p = .ok p') :
    ∃ s', fs.foldlM (foreignItem code) s = .ok s' ∧ s'.p = p' := by
  induction hr generalizing s with
  | nil => cases h; exact ⟨s, rfl, rfl⟩
  | @cons f fs i is hf _ ih =>
    obtain ⟨p1, h1, h2⟩ := foldl_cons.mp h
    obtain ⟨s1, hs1, rfl⟩ := reads_fnItem hf h1
    obtain ⟨s2, hs2, e⟩ := ih h2
    exact ⟨s2, foldl_cons.mpr ⟨s1, hs1, hs2⟩, e⟩

/-! ## structs -/

theorem filter_attrs (l : List Attr) (s : FilterAttrs) (a : Attr) :
    a ∈ (l.foldl (fun s a => if attrEq a Kw.cfg then { s with cfgs := s.cfgs ++ [a] } else if attrEq a Kw.doc then { s with docs := s.docs ++ [a] } else { s with attrs := s.attrs ++ [a] }) s).attrs ↔
      a ∈ s.attrs ∨ a ∈ l ∧ attrEq a Kw.cfg = false ∧ attrEq a Kw.doc = false := by
  induction l generalizing s with
  | nil => simp
  | cons b l ih =>
    rw [List.foldl_cons, ih]
    split
    · next hb => simp only [List.mem_cons]; grind
    · next hb =>
      split
      · next hd => simp only [List.mem_cons]; grind
      · next hd => simp only [List.mem_cons, List.mem_append, List.not_mem_nil, or_false]; grind

theorem isAttr_unique {n m : Ident} {a : Attr} (h : IsAttr n a) (h' : IsAttr m a) : n = m := by
  obtain ⟨-, lc, h1⟩ := h
  obtain ⟨-, lc', h2⟩ := h'
  rw [h1] at h2
  simp only [Path.mk.injEq, List.cons.injEq, Seg.mk.injEq, and_true] at h2
  exact h2.2

theorem lockFree_iff {l : List Attr} : (extractLockFree (filterAttributes l).attrs).1 = true ↔ ∃ a ∈ l, IsAttr Kw.lockFree a := by
  have hmem : ∀ a, a ∈ (filterAttributes l).attrs ↔ a ∈ l ∧ attrEq a Kw.cfg = false ∧ attrEq a Kw.doc = false := by
    intro a
    unfold filterAttributes
    rw [filter_attrs]; simp
  unfold extractLockFree
  cases hf : (filterAttributes l).attrs.findIdx? (attrEq · Kw.lockFree) with
  | none =>
    simp only [Bool.false_eq_true, false_iff]
    rintro ⟨a, ha, hl⟩
    rw [List.findIdx?_eq_none_iff] at hf
    have hne : ∀ n, n ≠ Kw.lockFree → attrEq a n = false := fun n hn => Bool.eq_false_iff.mpr fun hh => hn (isAttr_unique (attrEq_iff.mp hh) hl)
    have := hf a ((hmem a).mpr ⟨ha, hne _ (by decide), hne _ (by decide)⟩)
    rw [attrEq_iff.mpr hl] at this; cases this
  | some pos =>
    simp only [true_iff]
    have := List.findIdx?_eq_some_iff_getElem.mp hf
    obtain ⟨hlt, h1, -⟩ := this
    exact ⟨_, ((hmem _).mp (List.getElem_mem hlt)).1, attrEq_iff.mp h1⟩

theorem fields_reads (code : Ty → Analysis.Ty) (fs : List Field) : ReadsFields code fs (fs.map (parseSharedRes code)) := by
  induction fs with
  | nil => exact .nil
  | cons f fs ih => exact .cons ⟨rfl, rfl, lockFree_iff⟩ ih

theorem reads_fields {code : Ty → Analysis.Ty} {fs : List Field} {rs : List (Ident × SharedRes)} (h : ReadsFields code fs rs) : rs = fs.map (parseSharedRes code) := by
  induction h with
  | nil => rfl
  | @cons f fs r rs hf _ ih =>
    obtain ⟨n, ⟨t, lf⟩⟩ := r
    obtain ⟨h1, h2, h3⟩ := hf
    simp only at h1 h2 h3
    subst h1 h2
    rw [ih]
    have : lf = (extractLockFree (filterAttributes f.attrs).attrs).1 := Bool.eq_iff_iff.mpr (h3.trans lockFree_iff.symm)
    rw [this]; rfl

theorem any_iff {l : List Attr} {n : Ident} : l.any (attrEq · n) = true ↔ ¬ Unmarked l n := by
  rw [List.any_eq_true]
  unfold Unmarked
  constructor
  · rintro ⟨a, ha, h⟩ hu; exact hu a ha (attrEq_iff.mp h)
  · intro h
    simp only [Classical.not_forall, Classical.not_not] at h
    obtain ⟨a, ha, h⟩ := h
    exact ⟨a, ha, attrEq_iff.mpr h⟩

theorem abi_iff {a : Abi} : abiIsRust a = true ↔ a.name = none ∨ a.name = some Kw.rust := by
  unfold abiIsRust
  cases a.name <;> simp

/-! ## items -/

theorem item_reads {code : Ty → Analysis.Ty} {s s' : SSt} {i : SItem} (h : synItem code s i = .ok s') : ∃ is, ReadsItem code i is ∧ is.foldlM parseItem s.p = .ok s'.p := by
  cases i with
  | fn f =>
    obtain ⟨i, hi, hp⟩ := fnItem_reads h
    exact ⟨[i], .fn hi, foldl_cons.mpr ⟨_, hp, rfl⟩⟩
  | other => cases h; exact ⟨[], .other, rfl⟩
  | foreign abi items =>
    simp only [synItem] at h
    split at h
    · next ha =>
      obtain ⟨is, h1, h2⟩ := foreign_reads h
      exact ⟨is, .foreign (abi_iff.mp ha) h1, h2⟩
    · cases h
  | struct attrs name fields =>
    simp only [synItem] at h
    split at h
    · next hs =>
      split at h
      · cases h
      · next he =>
        split at h
        · next fs =>
          obtain ⟨m, hm, h⟩ := bind_ok h
          cases h
          refine ⟨[.sharedStruct name (fs.map (parseSharedRes code))], .shared (any_iff.mp hs) (fields_reads code fs), foldl_cons.mpr ⟨_, ?_, rfl⟩⟩
          simp only [parseItem, if_neg he, bind_eq hm]; rfl
        · cases h
    · next hs =>
      have hs' : Unmarked attrs Kw.shared := Classical.byContradiction fun hh => hs (any_iff.mpr hh)
      split at h
      · next hl =>
        split at h
        · cases h
        · next he =>
          split at h
          · next fs =>
            obtain ⟨m, hm, h⟩ := bind_ok h
            cases h
            refine ⟨[.localStruct name (fs.map (parseLocalRes code))], .locals hs' (any_iff.mp hl), foldl_cons.mpr ⟨_, ?_, rfl⟩⟩
            simp only [parseItem, if_neg he, bind_eq hm]; rfl
          · cases h
      · next hl =>
        cases h
        exact ⟨[], .struct hs' (Classical.byContradiction fun hh => hl (any_iff.mpr hh)), rfl⟩

theorem reads_item {code : Ty → Analysis.Ty} {s : SSt} {i : SItem} {is : List Item} (hr : ReadsItem code i is) {p' : PSt} (h : is.foldlM parseItem s.p = .ok p') :
    ∃ s', synItem code s i = .ok s' ∧ s'.p = p' := by
  cases hr with
  | fn hf =>
    obtain ⟨p1, h1, h2⟩ := foldl_cons.mp h
    cases h2
    exact reads_fnItem hf h1
  | other => cases h; exact ⟨s, rfl, rfl⟩
  | foreign ha hf =>
    obtain ⟨s', h1, h2⟩ := reads_foreign hf h
    refine ⟨s', ?_, h2⟩
    simp only [synItem]
    rw [if_pos (abi_iff.mpr ha)]; exact h1
  | @shared attrs name fs rs hs hf =>
    have hrs := reads_fields hf
    subst hrs
    obtain ⟨p1, h1, h2⟩ := foldl_cons.mp h
    cases h2
    simp only [parseItem] at h1
    split at h1
    · cases h1
    · next he =>
      obtain ⟨m, hm, h1⟩ := bind_ok h1
      cases h1
      refine ⟨⟨_, s.defs⟩, ?_, rfl⟩
      simp only [synItem, if_pos (any_iff.mpr hs), if_neg he, bind_eq hm]; rfl
  | @locals attrs name fs hs hl =>
    obtain ⟨p1, h1, h2⟩ := foldl_cons.mp h
    cases h2
    simp only [parseItem] at h1
    split at h1
    · cases h1
    · next he =>
      obtain ⟨m, hm, h1⟩ := bind_ok h1
      cases h1
      have hm' : (fs.map (parseLocalRes code)).foldlM (insertNew .fieldTwice) s.p.localRes = .ok m := hm
      refine ⟨⟨_, s.defs⟩, ?_, rfl⟩
      simp only [synItem, if_neg (fun hh => any_iff.mp hh hs), if_pos (any_iff.mpr hl), if_neg he, bind_eq hm']; rfl
  | struct hs hl =>
    cases h
    refine ⟨s, ?_, rfl⟩
    simp only [synItem, if_neg (fun hh => any_iff.mp hh hs), if_neg (fun hh => any_iff.mp hh hl)]; rfl

theorem items_reads {code : Ty → Analysis.Ty} {l : List SItem} {s s' : SSt} (h : l.foldlM (synItem code) s = .ok s') : ∃ is, Reads code l is ∧ is.foldlM parseItem s.p = .ok s'.p := by
  induction l generalizing s with
  | nil => cases h; exact ⟨[], .nil, rfl⟩
  | cons i l ih =>
    obtain ⟨s1, h1, h2⟩ := foldl_cons.mp h
    obtain ⟨a, ha, hp⟩ := item_reads h1
    obtain ⟨b, hb, hq⟩ := ih h2
    exact ⟨a ++ b, .cons ha hb, foldl_append.mpr ⟨_, hp, hq⟩⟩

theorem reads_items {code : Ty → Analysis.Ty} {l : List SItem} {is : List Item} (hr : Reads code l is) {s : SSt} {p' : PSt} (h : is.foldlM parseItem s.p = .ok p') :
    ∃ s', l.foldlM (synItem code) s = .ok s' ∧ s'.p = p' := by
  induction hr generalizing s with
  | nil => cases h; exact ⟨s, rfl, rfl⟩
  | cons hi _ ih =>
    obtain ⟨p1, h1, h2⟩ := foldl_append.mp h
    obtain ⟨s1, hs1, rfl⟩ := reads_item hi h1
    obtain ⟨s2, hs2, e⟩ := ih h2
    exact ⟨s2, foldl_cons.mpr ⟨s1, hs1, hs2⟩, e⟩

theorem parse_finish (raw : Analysis.Raw) : Analysis.parse raw = (do let ds ← parseDispatchers raw.dispatchers; let s ← raw.items.foldlM parseItem {}; finish ds s) := rfl

/-- parsing a module and parsing the items it consists of -/
theorem parseApp_iff {code : Ty → Analysis.Ty} {ds : List Ident} {items : List SItem} {app : Analysis.App} :
    (∃ defs, parseApp code ds items = .ok (app, defs)) ↔ ∃ is, Reads code items is ∧ Analysis.parse { dispatchers := ds, items := is } = .ok app := by
  constructor
  · rintro ⟨defs, h⟩
    obtain ⟨d, h1, h⟩ := bind_ok h
    obtain ⟨s, h2, h⟩ := bind_ok h
    obtain ⟨a, h3, h⟩ := bind_ok h
    cases h
    obtain ⟨is, hr, hp⟩ := items_reads h2
    refine ⟨is, hr, ?_⟩
    rw [parse_finish, bind_eq h1, bind_eq hp]; exact h3
  · rintro ⟨is, hr, h⟩
    rw [parse_finish] at h
    obtain ⟨d, h1, h⟩ := bind_ok h
    obtain ⟨p, h2, h⟩ := bind_ok h
    obtain ⟨s, hs, rfl⟩ := reads_items hr (s := {}) h2
    refine ⟨s.defs, ?_⟩
    unfold parseApp
    rw [bind_eq h1, bind_eq hs, bind_eq h]; rfl

/-- the macro on a module and on the items it consists of -/
theorem expandApp_iff {code : Ty → Analysis.Ty} {tg : Analysis.Target} {bits : Nat} {ds : List Ident} {items : List SItem} {p : Analysis.Program} :
    (∃ defs, expandApp code tg bits ds items = .ok (p, defs)) ↔ ∃ is, Reads code items is ∧ Analysis.expand tg bits { dispatchers := ds, items := is } = .ok p := by
  constructor
  · rintro ⟨defs, h⟩
    obtain ⟨⟨app, defs'⟩, h1, h⟩ := bind_ok h
    simp only at h
    obtain ⟨is, hr, hp⟩ := parseApp_iff.mp ⟨_, h1⟩
    refine ⟨is, hr, ?_⟩
    obtain ⟨u, h2, h⟩ := bind_ok h
    obtain ⟨base, h3, h⟩ := bind_ok h
    obtain ⟨u', h4, h⟩ := bind_ok h
    obtain ⟨an, h5, h⟩ := bind_ok h
    obtain ⟨p', h6, h⟩ := bind_ok h
    split at h
    · next hf =>
      cases h
      unfold Analysis.expand
      rw [bind_eq hp, bind_eq h2, bind_eq h3, bind_eq h4, bind_eq h5, bind_eq h6, if_pos hf]; rfl
    · cases h
  · rintro ⟨is, hr, h⟩
    unfold Analysis.expand at h
    obtain ⟨app, h1, h⟩ := bind_ok h
    obtain ⟨u, h2, h⟩ := bind_ok h
    obtain ⟨base, h3, h⟩ := bind_ok h
    obtain ⟨u', h4, h⟩ := bind_ok h
    obtain ⟨an, h5, h⟩ := bind_ok h
    obtain ⟨p', h6, h⟩ := bind_ok h
    obtain ⟨defs, hp⟩ := parseApp_iff.mpr ⟨is, hr, h1⟩
    split at h
    · next hf =>
      cases h
      refine ⟨defs, ?_⟩
      unfold expandApp
      rw [bind_eq hp]
      simp only
      rw [bind_eq h2, bind_eq h3, bind_eq h4, bind_eq h5, bind_eq h6, if_pos hf]; rfl
    · cases h

end Verif.Signature
