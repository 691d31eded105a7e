import Verif.Escape.Static

/-! # What the parser keeps of the functions -/

namespace Verif.Escape
open Verif.Analysis (Ident TaskArg Res PSt bind_ok checkIdent checkBinding)
open Verif.Signature

theorem checkIdent_seen {p q : PSt} {i : Ident} (h : checkIdent p i = .ok q) : i ∉ p.seen ∧ q.seen = i :: p.seen := by
  unfold checkIdent at h
  split at h
  · cases h
  · next hn => cases h; exact ⟨hn, rfl⟩

theorem checkBinding_seen {p q : PSt} {i : Ident} (h : checkBinding p i = .ok q) : q.seen = p.seen := by
  unfold checkBinding at h
  split at h
  · cases h
  · cases h; rfl

theorem init_name {ext : Bool} {f : Fn} {d : Def} {us ul : Ident} (h : parseInit ext f = some (d, us, ul)) : d.name = f.name := by
  unfold parseInit at h
  split at h
  · split at h
    · split at h
      · split at h
        · cases h; rfl
        · cases h
      · cases h
    · cases h
  · cases h

theorem idle_name {ext : Bool} {f : Fn} {d : Def} (h : parseIdle ext f = some d) : d.name = f.name := by
  unfold parseIdle at h
  split at h
  · split at h
    · split at h
      · cases h; rfl
      · cases h
    · cases h
  · cases h

theorem hardware_name {ext : Bool} {f : Fn} {d : Def} (h : parseHardware ext f = some d) : d.name = f.name := by
  unfold parseHardware at h
  split at h
  · split at h
    · split at h
      · cases h; rfl
      · cases h
    · cases h
  · cases h

theorem software_name {ext : Bool} {f : Fn} {d : Def} (h : parseSoftware ext f = some d) : d.name = f.name ∧ d.isExtern = ext ∧ d.isBottom = typeIsBottom f.output := by
  unfold parseSoftware at h
  simp only at h
  split at h
  · split at h
    · cases h; exact ⟨rfl, rfl, rfl⟩
    · cases h
  · cases h

/-- a function adds at most one definition, under a new name -/
theorem fnItem_defs {code : Ty → Analysis.Ty} {ext : Bool} {s s' : SSt} {f : Fn} (h : fnItem code ext s f = .ok s') :
    (s'.defs = s.defs ∧ s'.p.seen = s.p.seen ∧ ¬ IsSoftware f) ∨
    ∃ d, s'.defs = s.defs ++ [d] ∧ d.name = f.name ∧ f.name ∉ s.p.seen ∧ s'.p.seen = f.name :: s.p.seen ∧ (IsSoftware f → d.isExtern = ext ∧ (d.isBottom = true ↔ Diverges f.output)) := by
  unfold fnItem at h
  split at h
  · next a ha =>
    obtain ⟨l, hl, h⟩ := bind_ok h
    split at h
    · cases h
    · obtain ⟨p, hp, h⟩ := bind_ok h
      obtain ⟨c1, c2⟩ := checkIdent_seen hp
      split at h
      · next d us ul hd =>
        cases h
        have hn := init_name hd
        refine .inr ⟨d, rfl, hn, c1, c2, fun hsw => ?_⟩
        rw [unmarked_iff.mp hsw.1] at ha; cases ha
      · cases h
  · next hi =>
    split at h
    · next a ha =>
      obtain ⟨⟨sh, l⟩, hl, h⟩ := bind_ok h
      simp only at h
      split at h
      · cases h
      · obtain ⟨p, hp, h⟩ := bind_ok h
        obtain ⟨c1, c2⟩ := checkIdent_seen hp
        split at h
        · next d hd =>
          cases h
          have hn := idle_name hd
          refine .inr ⟨d, rfl, hn, c1, c2, fun hsw => ?_⟩
          rw [unmarked_iff.mp hsw.2.1] at ha; cases ha
        · cases h
    · next hid =>
      split at h
      · next a ha =>
        split at h
        · cases h
        · split at h
          · cases h
          · obtain ⟨t, ht, h⟩ := bind_ok h
            cases t with
            | inl t =>
              simp only at h
              obtain ⟨p, hp, h⟩ := bind_ok h
              obtain ⟨p2, hp2, h⟩ := bind_ok h
              obtain ⟨c1, c2⟩ := checkIdent_seen hp2
              have c3 := checkBinding_seen hp
              rw [c3] at c1 c2
              split at h
              · next d hd =>
                cases h
                have hn := hardware_name hd
                refine .inr ⟨d, rfl, hn, c1, c2, fun hsw => ?_⟩
                obtain ⟨args, hm, hb⟩ := hsw.2.2
                obtain ⟨a', ha', rfl⟩ := marked_iff.mp hm
                rw [ha] at ha'; cases ha'
                exact absurd (Analysis.taskArgs_hw ht).1 (hb _)
              · cases h
            | inr t =>
              simp only at h
              obtain ⟨p, hp, h⟩ := bind_ok h
              obtain ⟨c1, c2⟩ := checkIdent_seen hp
              split at h
              · next d hd =>
                cases h
                obtain ⟨e1, e2, e3⟩ := software_name hd
                refine .inr ⟨d, rfl, e1, c1, c2, fun _ => ⟨e2, ?_⟩⟩
                rw [e3]; exact bottom_iff
              · cases h
      · next hta =>
        split at h
        · cases h
        · cases h
          refine .inl ⟨rfl, rfl, fun hsw => ?_⟩
          obtain ⟨args, hm, hb⟩ := hsw.2.2
          obtain ⟨a', ha', rfl⟩ := marked_iff.mp hm
          rw [hta] at ha'; cases ha'

/-- the definitions kept have different names -/
structure DInv (s : SSt) : Prop where
  seen : ∀ d ∈ s.defs, d.name ∈ s.p.seen
  nodup : (s.defs.map Def.name).Nodup

/-- progress of the parser: definitions are only added -/
structure Ext (s s' : SSt) : Prop where
  inv : DInv s → DInv s'
  mono : ∀ d ∈ s.defs, d ∈ s'.defs

theorem Ext.refl (s : SSt) : Ext s s := ⟨id, fun _ h => h⟩
theorem Ext.trans {a b c : SSt} (h : Ext a b) (h' : Ext b c) : Ext a c := ⟨fun x => h'.inv (h.inv x), fun d hd => h'.mono d (h.mono d hd)⟩

/-- what is kept of a software task -/
def Kept (s : SSt) (ext : Bool) (f : Fn) : Prop := IsSoftware f → ∃ d ∈ s.defs, d.name = f.name ∧ d.isExtern = ext ∧ (d.isBottom = true ↔ Diverges f.output)

theorem Kept.mono {s s' : SSt} {ext : Bool} {f : Fn} (h : Kept s ext f) (he : Ext s s') : Kept s' ext f := fun hs => by
  obtain ⟨d, hd, h⟩ := h hs
  exact ⟨d, he.mono d hd, h⟩

theorem fnItem_ext {code : Ty → Analysis.Ty} {ext : Bool} {s s' : SSt} {f : Fn} (h : fnItem code ext s f = .ok s') : Ext s s' ∧ Kept s' ext f := by
  rcases fnItem_defs h with ⟨h1, h2, h3⟩ | ⟨d, h1, h2, h3, h4, h5⟩
  · exact ⟨⟨fun hi => ⟨by rw [h1, h2]; exact hi.seen, by rw [h1]; exact hi.nodup⟩, by rw [h1]; exact fun _ h => h⟩, fun hs => absurd hs h3⟩
  · refine ⟨⟨fun hi => ⟨?_, ?_⟩, ?_⟩, fun hs => ⟨d, by rw [h1]; simp, h2, h5 hs⟩⟩
    · intro d' hd'
      rw [h1] at hd'
      rw [h4]
      rcases List.mem_append.mp hd' with h | h
      · exact List.mem_cons_of_mem _ (hi.seen d' h)
      · cases List.mem_singleton.mp h; rw [h2]; exact List.mem_cons_self
    · rw [h1, List.map_append, List.nodup_append]
      refine ⟨hi.nodup, by simp, ?_⟩
      intro a ha b hb
      obtain ⟨d', hd', rfl⟩ := List.mem_map.mp ha
      simp only [List.map_cons, List.map_nil, List.mem_singleton] at hb
      subst hb
      intro e
      exact h3 (h2 ▸ e ▸ hi.seen d' hd')
    · intro d' hd'
      rw [h1]; exact List.mem_append_left _ hd'

theorem foreign_ext {code : Ty → Analysis.Ty} {fs : List FItem} {s s' : SSt} (h : fs.foldlM (foreignItem code) s = .ok s') : Ext s s' ∧ ∀ f, .fn f ∈ fs → Kept s' true f := by
  induction fs generalizing s with
  | nil => cases h; exact ⟨.refl _, by simp⟩
  | cons x fs ih =>
    obtain ⟨s1, h1, h2⟩ := foldl_cons.mp h
    obtain ⟨e2, k2⟩ := ih h2
    cases x with
    | fn f =>
      obtain ⟨e1, k1⟩ := fnItem_ext h1
      refine ⟨e1.trans e2, fun g hg => ?_⟩
      rcases List.mem_cons.mp hg with e | hg
      · cases e; exact k1.mono e2
      · exact k2 g hg
    | other => cases h1

theorem item_ext {code : Ty → Analysis.Ty} {s s' : SSt} {i : SItem} (h : synItem code s i = .ok s') :
    Ext s s' ∧ (∀ f, i = .fn f → Kept s' false f) ∧ ∀ abi fs, i = .foreign abi fs → ∀ f, .fn f ∈ fs → Kept s' true f := by
  cases i with
  | fn f =>
    obtain ⟨e1, k1⟩ := fnItem_ext (ext := false) h
    exact ⟨e1, (by intro g hg; cases hg; exact k1), (by intro _ _ e; cases e)⟩
  | struct attrs name fields =>
    refine ⟨?_, (by intro _ e; cases e), (by intro _ _ e; cases e)⟩
    simp only [synItem] at h
    have same : ∀ s', s'.defs = s.defs → s'.p.seen = s.p.seen → Ext s s' := fun s' h1 h2 =>
      ⟨fun hi => ⟨by rw [h1, h2]; exact hi.seen, by rw [h1]; exact hi.nodup⟩, by rw [h1]; exact fun _ h => h⟩
    split at h
    · split at h
      · cases h
      · split at h
        · obtain ⟨m, hm, h⟩ := bind_ok h
          cases h
          exact same _ rfl rfl
        · cases h
    · split at h
      · split at h
        · cases h
        · split at h
          · obtain ⟨m, hm, h⟩ := bind_ok h
            cases h
            exact same _ rfl rfl
          · cases h
      · cases h; exact .refl _
  | foreign abi fs =>
    simp only [synItem] at h
    split at h
    · obtain ⟨e1, k1⟩ := foreign_ext h
      exact ⟨e1, (by intro _ e; cases e), (by intro _ _ e; cases e; exact k1)⟩
    · cases h
  | other => cases h; exact ⟨.refl _, (by intro _ e; cases e), (by intro _ _ e; cases e)⟩

theorem items_ext {code : Ty → Analysis.Ty} {l : List SItem} {s s' : SSt} (h : l.foldlM (synItem code) s = .ok s') : Ext s s' ∧ ∀ ext f, FnOf l ext f → Kept s' ext f := by
  induction l generalizing s with
  | nil => cases h; exact ⟨.refl _, by intro ext f hf; unfold FnOf at hf; split at hf <;> simp at hf⟩
  | cons i l ih =>
    obtain ⟨s1, h1, h2⟩ := foldl_cons.mp h
    obtain ⟨e1, k1, k1'⟩ := item_ext h1
    obtain ⟨e2, k2⟩ := ih h2
    refine ⟨e1.trans e2, fun ext f hf => ?_⟩
    cases ext with
    | false =>
      have hf : SItem.fn f ∈ i :: l := hf
      rcases List.mem_cons.mp hf with e | hf
      · exact (k1 f e.symm).mono e2
      · exact k2 false f hf
    | true =>
      obtain ⟨abi, fs, hm, hf⟩ : ∃ abi fs, SItem.foreign abi fs ∈ i :: l ∧ FItem.fn f ∈ fs := hf
      rcases List.mem_cons.mp hm with e | hm
      · exact (k1' abi fs e.symm f hf).mono e2
      · exact k2 true f ⟨abi, fs, hm, hf⟩

theorem parse_defs {code : Ty → Analysis.Ty} {ds : List Ident} {items : List SItem} {app : Analysis.App} {defs : List Def} (h : parseApp code ds items = .ok (app, defs)) :
    (defs.map Def.name).Nodup ∧ ∀ ext f, FnOf items ext f → IsSoftware f → ∃ d ∈ defs, d.name = f.name ∧ d.isExtern = ext ∧ (d.isBottom = true ↔ Diverges f.output) := by
  obtain ⟨d, h1, h⟩ := bind_ok h
  obtain ⟨s, h2, h⟩ := bind_ok h
  obtain ⟨a, h3, h⟩ := bind_ok h
  cases h
  obtain ⟨e, k⟩ := items_ext h2
  exact ⟨(e.inv ⟨by simp, by simp⟩).nodup, k⟩

theorem unique_def {defs : List Def} (h : (defs.map Def.name).Nodup) {d d' : Def} (hd : d ∈ defs) (hd' : d' ∈ defs) (e : d.name = d'.name) : d = d' := by
  induction defs with
  | nil => cases hd
  | cons x l ih =>
    simp only [List.map_cons, List.nodup_cons, List.mem_map, not_exists, not_and] at h
    rcases List.mem_cons.mp hd with e1 | h1
    · rcases List.mem_cons.mp hd' with e2 | h2
      · rw [e1, e2]
      · subst e1; exact absurd e.symm (h.1 d' h2)
    · rcases List.mem_cons.mp hd' with e2 | h2
      · subst e2; exact absurd e (h.1 d h1)
      · exact ih h.2 h1 h2

end Verif.Escape
