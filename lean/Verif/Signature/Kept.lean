import Verif.Signature.Props

/-!
# What is kept of the functions

The generated code contains each function again (or, for `extern` blocks, calls the function declared there), under the attributes the user has written, except those the macro has read.
-/

namespace Verif.Signature
open Verif.Analysis (Ident Target Res bind_ok)

/-! ## specification -/

/-- the attributes except the first one called `name` -/
def Without (attrs : List Attr) (name : Ident) (rest : List Attr) : Prop :=
  ∃ pre a post, attrs = pre ++ a :: post ∧ IsAttr name a ∧ (∀ b ∈ pre, ¬ IsAttr name b) ∧ rest = pre ++ post

/-- `cfg` attributes and others in the order of the source; documentation is dropped -/
inductive Sift : List Attr → List Attr → List Attr → Prop
  | nil : Sift [] [] []
  | cfg {a l cfgs attrs} : IsAttr Kw.cfg a → Sift l cfgs attrs → Sift (a :: l) (a :: cfgs) attrs
  | doc {a l cfgs attrs} : IsAttr Kw.doc a → Sift l cfgs attrs → Sift (a :: l) cfgs attrs
  | other {a l cfgs attrs} : ¬ IsAttr Kw.cfg a → ¬ IsAttr Kw.doc a → Sift l cfgs attrs → Sift (a :: l) cfgs (a :: attrs)

/-- name, pattern of the context, further arguments, origin, and whether it is declared with `-> !` -/
structure KeptFn (ext : Bool) (f : Fn) (d : Def) : Prop where
  name : d.name = f.name
  context : ∃ ty rest, f.inputs = .typed d.context ty :: rest
  inputs : FurtherInputs f d.inputs
  isExtern : d.isExtern = ext
  bottom : d.isBottom = true ↔ Diverges f.output

inductive Kept (ext : Bool) (f : Fn) (d : Def) : Prop
  | init : KeptFn ext f d → Without f.attrs Kw.init d.attrs → d.cfgs = [] → Kept ext f d
  | idle : KeptFn ext f d → Unmarked f.attrs Kw.init → Without f.attrs Kw.idle d.attrs → d.cfgs = [] → Kept ext f d
  | task {rest} : KeptFn ext f d → Unmarked f.attrs Kw.init → Unmarked f.attrs Kw.idle → Without f.attrs Kw.task rest → Sift rest d.cfgs d.attrs → Kept ext f d

/-- the functions of an `extern` block -/
inductive KeptForeign : List FItem → List Def → Prop
  | nil : KeptForeign [] []
  | cons {f fs d ds} : Kept true f d → KeptForeign fs ds → KeptForeign (.fn f :: fs) (d :: ds)

/-- The functions kept, in the order of the source; functions without the attributes of the macro are not among them. -/
inductive KeptAll : List SItem → List Def → Prop
  | nil : KeptAll [] []
  | fn {f l d ds} : Kept false f d → KeptAll l ds → KeptAll (.fn f :: l) (d :: ds)
  | plain {f l ds} : Unmarked f.attrs Kw.init → Unmarked f.attrs Kw.idle → Unmarked f.attrs Kw.task → KeptAll l ds → KeptAll (.fn f :: l) ds
  | foreign {abi fs l ds ds'} : KeptForeign fs ds → KeptAll l ds' → KeptAll (.foreign abi fs :: l) (ds ++ ds')
  | struct {attrs name fs l ds} : KeptAll l ds → KeptAll (.struct attrs name fs :: l) ds
  | other {l ds} : KeptAll l ds → KeptAll (.other :: l) ds

/-! ## proofs -/

theorem without_iff {l : List Attr} {n : Ident} {a : Attr} (h : l.find? (attrEq · n) = some a) : Without l n (l.eraseP (attrEq · n)) := by
  obtain ⟨h3, pre, post, h4, h5⟩ := List.find?_eq_some_iff_append.mp h
  have hp : ∀ b ∈ pre, ¬ attrEq b n = true := fun b hb hh => by
    have := h5 b hb
    simp [hh] at this
  refine ⟨pre, a, post, h4, attrEq_iff.mp h3, fun b hb hh => hp b hb (attrEq_iff.mpr hh), ?_⟩
  rw [h4, List.eraseP_append_right _ hp, List.eraseP_cons]; simp [h3]

theorem sift_fold (l : List Attr) (s : FilterAttrs) : ∃ cfgs attrs, Sift l cfgs attrs ∧
    (l.foldl (fun s a => if attrEq a Kw.cfg then { s with cfgs := s.cfgs ++ [a] } else if attrEq a Kw.doc then { s with docs := s.docs ++ [a] } else { s with attrs := s.attrs ++ [a] }) s).cfgs = s.cfgs ++ cfgs ∧
    (l.foldl (fun s a => if attrEq a Kw.cfg then { s with cfgs := s.cfgs ++ [a] } else if attrEq a Kw.doc then { s with docs := s.docs ++ [a] } else { s with attrs := s.attrs ++ [a] }) s).attrs = s.attrs ++ attrs := by
  induction l generalizing s with
  | nil => exact ⟨[], [], .nil, by simp, by simp⟩
  | cons a l ih =>
    rw [List.foldl_cons]
    by_cases h1 : attrEq a Kw.cfg = true
    · rw [if_pos h1]
      obtain ⟨c, r, hs, e1, e2⟩ := ih { s with cfgs := s.cfgs ++ [a] }
      exact ⟨a :: c, r, .cfg (attrEq_iff.mp h1) hs, by rw [e1]; simp, e2⟩
    · rw [if_neg h1]
      by_cases h2 : attrEq a Kw.doc = true
      · rw [if_pos h2]
        obtain ⟨c, r, hs, e1, e2⟩ := ih { s with docs := s.docs ++ [a] }
        exact ⟨c, r, .doc (attrEq_iff.mp h2) hs, e1, e2⟩
      · rw [if_neg h2]
        obtain ⟨c, r, hs, e1, e2⟩ := ih { s with attrs := s.attrs ++ [a] }
        exact ⟨c, a :: r, .other (fun h => h1 (attrEq_iff.mpr h)) (fun h => h2 (attrEq_iff.mpr h)) hs, e1, by rw [e2]; simp⟩

theorem sift_filter (l : List Attr) : Sift l (filterAttributes l).cfgs (filterAttributes l).attrs := by
  obtain ⟨c, r, hs, e1, e2⟩ := sift_fold l {}
  unfold filterAttributes
  rw [e1, e2]
  simpa using hs

theorem kept_inputs {f : Fn} {n : Ident} {tt : TaskType} {c : Nat} {ins : List (Nat × Ty)} (h : parseInputs f.inputs n tt = some (c, some ins)) :
    (∃ ty rest, f.inputs = .typed c ty :: rest) ∧ FurtherInputs f ins := by
  obtain ⟨ty, args, h1, -, -⟩ := parseInputs_iff.mp h
  refine ⟨⟨ty, _, h1⟩, ?_⟩
  unfold FurtherInputs
  rw [h1]; rfl

theorem init_kept {ext : Bool} {f : Fn} {d : Def} {us ul : Ident} (h : parseInit ext f = some (d, us, ul)) : KeptFn ext f d ∧ d.attrs = f.attrs ∧ d.cfgs = [] := by
  unfold parseInit at h
  split at h
  · split at h
    · next us' ul' hr =>
      split at h
      · next c rest hi =>
        split at h
        · next hn =>
          have : rest = [] := by simpa using hn
          subst this
          obtain ⟨h1, h2⟩ := kept_inputs hi
          cases h
          refine ⟨⟨rfl, h1, h2, rfl, ?_⟩, rfl, rfl⟩
          obtain ⟨a, b, e, -⟩ := initReturn_iff.mp hr
          rw [e]
          simp [Diverges]
        · cases h
      · cases h
    · cases h
  · cases h

theorem idle_kept {ext : Bool} {f : Fn} {d : Def} (h : parseIdle ext f = some d) : KeptFn ext f d ∧ d.attrs = f.attrs ∧ d.cfgs = [] := by
  unfold parseIdle at h
  split at h
  · next hc =>
    simp only [Bool.and_eq_true, beq_iff_eq] at hc
    split at h
    · next c rest hi =>
      split at h
      · next hn =>
        have : rest = [] := by simpa using hn
        subst this
        obtain ⟨h1, h2⟩ := kept_inputs hi
        cases h
        exact ⟨⟨rfl, h1, h2, rfl, by simpa using bottom_iff.mp hc.2⟩, rfl, rfl⟩
      · cases h
    · cases h
  · cases h

theorem hardware_kept {ext : Bool} {f : Fn} {d : Def} (h : parseHardware ext f = some d) : KeptFn ext f d ∧ Sift f.attrs d.cfgs d.attrs := by
  unfold parseHardware at h
  split at h
  · next hc =>
    simp only [Bool.and_eq_true, beq_iff_eq] at hc
    split at h
    · next c rest hi =>
      split at h
      · next hn =>
        have : rest = [] := by simpa using hn
        subst this
        obtain ⟨h1, h2⟩ := kept_inputs hi
        cases h
        refine ⟨⟨rfl, h1, h2, rfl, ?_⟩, sift_filter _⟩
        rcases unit_iff.mp hc.2 with e | e <;> rw [e] <;> simp [Diverges]
      · cases h
    · cases h
  · cases h

theorem software_kept {ext : Bool} {f : Fn} {d : Def} (h : parseSoftware ext f = some d) : KeptFn ext f d ∧ Sift f.attrs d.cfgs d.attrs := by
  unfold parseSoftware at h
  simp only at h
  split at h
  · split at h
    · next c ins hi =>
      obtain ⟨h1, h2⟩ := kept_inputs hi
      cases h
      exact ⟨⟨rfl, h1, h2, rfl, bottom_iff⟩, sift_filter _⟩
    · cases h
  · cases h

theorem keptFn_attrs {ext : Bool} {f : Fn} {l : List Attr} {d : Def} (h : KeptFn ext { f with attrs := l } d) : KeptFn ext f d := ⟨h.name, h.context, h.inputs, h.isExtern, h.bottom⟩

theorem fnItem_kept {code : Ty → Analysis.Ty} {ext : Bool} {s s' : SSt} {f : Fn} (h : fnItem code ext s f = .ok s') :
    (∃ d, Kept ext f d ∧ s'.defs = s.defs ++ [d]) ∨ ext = false ∧ Unmarked f.attrs Kw.init ∧ Unmarked f.attrs Kw.idle ∧ Unmarked f.attrs Kw.task ∧ s'.defs = s.defs := by
  unfold fnItem at h
  split at h
  · next a ha =>
    obtain ⟨l, -, h⟩ := bind_ok h
    split at h
    · cases h
    · obtain ⟨p, -, h⟩ := bind_ok h
      split at h
      · next d us ul hp =>
        cases h
        obtain ⟨h1, h2, h3⟩ := init_kept hp
        exact .inl ⟨d, .init (keptFn_attrs h1) (by rw [h2]; exact without_iff ha) h3, rfl⟩
      · cases h
  · next ha =>
    split at h
    · next a hb =>
      obtain ⟨⟨sh, l⟩, -, h⟩ := bind_ok h
      simp only at h
      split at h
      · cases h
      · obtain ⟨p, -, h⟩ := bind_ok h
        split at h
        · next d hp =>
          cases h
          obtain ⟨h1, h2, h3⟩ := idle_kept hp
          exact .inl ⟨d, .idle (keptFn_attrs h1) (unmarked_iff.mpr ha) (by rw [h2]; exact without_iff hb) h3, rfl⟩
        · cases h
    · next hb =>
      split at h
      · next a hc =>
        split at h
        · cases h
        · split at h
          · cases h
          · obtain ⟨t, -, h⟩ := bind_ok h
            split at h
            · obtain ⟨p, -, h⟩ := bind_ok h
              obtain ⟨p', -, h⟩ := bind_ok h
              split at h
              · next d hp =>
                cases h
                obtain ⟨h1, h2⟩ := hardware_kept hp
                exact .inl ⟨d, .task (keptFn_attrs h1) (unmarked_iff.mpr ha) (unmarked_iff.mpr hb) (without_iff hc) h2, rfl⟩
              · cases h
            · obtain ⟨p, -, h⟩ := bind_ok h
              split at h
              · next d hp =>
                cases h
                obtain ⟨h1, h2⟩ := software_kept hp
                exact .inl ⟨d, .task (keptFn_attrs h1) (unmarked_iff.mpr ha) (unmarked_iff.mpr hb) (without_iff hc) h2, rfl⟩
              · cases h
      · next hc =>
        split at h
        · cases h
        · next he =>
          cases h
          exact .inr ⟨by simpa using he, unmarked_iff.mpr ha, unmarked_iff.mpr hb, unmarked_iff.mpr hc, rfl⟩

theorem foreign_kept {code : Ty → Analysis.Ty} {fs : List FItem} {s s' : SSt} (h : fs.foldlM (foreignItem code) s = .ok s') : ∃ ds, KeptForeign fs ds ∧ s'.defs = s.defs ++ ds := by
  induction fs generalizing s with
  | nil => cases h; exact ⟨[], .nil, by simp⟩
  | cons x fs ih =>
    obtain ⟨s1, h1, h2⟩ := foldl_cons.mp h
    obtain ⟨ds, hk, e⟩ := ih h2
    cases x with
    | fn f =>
      rcases fnItem_kept h1 with ⟨d, hd, e1⟩ | ⟨he, _⟩
      · exact ⟨d :: ds, .cons hd hk, by rw [e, e1]; simp⟩
      · cases he
    | other => cases h1

theorem struct_defs {code : Ty → Analysis.Ty} {s s' : SSt} {attrs : List Attr} {name : Ident} {fs : Option (List Field)} (h : synItem code s (.struct attrs name fs) = .ok s') : s'.defs = s.defs := by
  simp only [synItem] at h
  split at h
  · split at h
    · cases h
    · split at h
      · obtain ⟨m, -, h⟩ := bind_ok h
        cases h; rfl
      · cases h
  · split at h
    · split at h
      · cases h
      · split at h
        · obtain ⟨m, -, h⟩ := bind_ok h
          cases h; rfl
        · cases h
    · cases h; rfl

theorem items_kept {code : Ty → Analysis.Ty} {l : List SItem} {s s' : SSt} (h : l.foldlM (synItem code) s = .ok s') : ∃ ds, KeptAll l ds ∧ s'.defs = s.defs ++ ds := by
  induction l generalizing s with
  | nil => cases h; exact ⟨[], .nil, by simp⟩
  | cons x l ih =>
    obtain ⟨s1, h1, h2⟩ := foldl_cons.mp h
    obtain ⟨ds, hk, e⟩ := ih h2
    cases x with
    | fn f =>
      rcases fnItem_kept h1 with ⟨d, hd, e1⟩ | ⟨-, hi, hd, ht, e1⟩
      · exact ⟨d :: ds, .fn hd hk, by rw [e, e1]; simp⟩
      · exact ⟨ds, .plain hi hd ht hk, by rw [e, e1]⟩
    | struct attrs name fs => exact ⟨ds, .struct hk, by rw [e, struct_defs h1]⟩
    | foreign abi fs =>
      simp only [synItem] at h1
      split at h1
      · obtain ⟨ds', hk', e'⟩ := foreign_kept h1
        exact ⟨ds' ++ ds, .foreign hk' hk, by rw [e, e']; simp⟩
      · cases h1
    | other => cases h1; exact ⟨ds, .other hk, e⟩

/-- **C97** Of an accepted module exactly the functions with an attribute of the macro are kept, in the order of the source, each with its name, arguments and return type, and under all attributes the user wrote on it except the one
read by the macro; for tasks `cfg` is kept apart (it goes on everything generated for the task) and documentation is dropped. -/
theorem C97_functions_kept {code : Ty → Analysis.Ty} {tg : Target} {bits : Nat} {ds : List Ident} {items : List SItem} {p : Analysis.Program} {defs : List Def}
    (h : expandApp code tg bits ds items = .ok (p, defs)) : KeptAll items defs := by
  obtain ⟨⟨app, defs'⟩, h1, h⟩ := bind_ok h
  simp only at h
  obtain ⟨u0, v0, h⟩ := bind_ok h
  obtain ⟨u1, v1, h⟩ := bind_ok h
  obtain ⟨u2, v2, h⟩ := bind_ok h
  obtain ⟨u3, v3, h⟩ := bind_ok h
  obtain ⟨u4, v4, h⟩ := bind_ok h
  split at h
  · cases h
    unfold parseApp at h1
    obtain ⟨u7, v7, h1⟩ := bind_ok h1
    obtain ⟨s, h2, h1⟩ := bind_ok h1
    obtain ⟨u8, v8, h1⟩ := bind_ok h1
    cases h1
    obtain ⟨ds', hk, e⟩ := items_kept h2
    rw [e]
    simpa using hk
  · cases h

/-- The hypothesis is met by the module of `Props.lean`; what is kept of it: the name, `cfg`, other attributes and the patterns of the further inputs. -/
example : ∃ p defs, expandApp exCode exTg 4 [50, 51] (exItems .none) = .ok (p, defs) := by
  have h : spawnable (expandApp exCode exTg 4 [50, 51] (exItems .none)) ≠ none := by decide +kernel
  cases hr : expandApp exCode exTg 4 [50, 51] (exItems .none) with
  | ok r => exact ⟨r.1, r.2, rfl⟩
  | error e => rw [hr] at h; exact absurd rfl h
example : (parseSoftware false { exTask with attrs := [at_ Kw.doc, at_ 77, at_ Kw.cfg, at_ 78] }).map (fun d => (d.name, d.cfgs.length, d.attrs.map (·.path.segs.map (·.ident)), d.inputs.length)) = some (30, 1, [[77], [78]], 0) := by decide +kernel

end Verif.Signature
