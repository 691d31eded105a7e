import Verif.Front.App
import Verif.Signature.Props

/-!
# C102: the macro from the tokens of the attributes to the code
-/

namespace Verif.Front
open Verif.Analysis (Ident Res Err Fail Item Target Valid)
open Verif.Signature (Path Ty Def)
open Verif.Grammar (Syn Tok CommaList AppItem AppMeans AppArgs)

/-! ## C102 -/

/-- **C102** The macro accepts a module if and only if the arguments of `#[app(..)]` are written as in the grammar, each at most once, with `device` (C100), the module consists of functions, structs and
`extern` blocks of the documented forms with arguments as in the grammar (C97, C100), and these follow the rules of C84. -/
theorem C102_accepted_iff (syn : Syn) (code : Ty → Analysis.Ty) (tg : Target) (bits : Nat) (args : List Tok) (items : List TItem) :
    (∃ r, expandApp syn code tg bits args items = .ok r) ↔
      ∃ as a is, CommaList (AppItem syn false) args as ∧ AppMeans as a ∧ Reads syn code items is ∧ Valid tg bits { dispatchers := a.dispatchers.map Prod.fst, items := is } := by
  constructor
  · rintro ⟨⟨p, a, defs⟩, h⟩
    obtain ⟨ha, l', hl, h⟩ := expandApp_elab.1 h
    obtain ⟨as, h1, h2⟩ := (Grammar.C100_app_arguments _ _ _ _).1 ha
    obtain ⟨is, h3, h4⟩ := (Signature.C97_module_accepted_iff _ _ _ _ _).1 ⟨_, h⟩
    exact ⟨as, a, is, h1, h2, reads_iff.2 ⟨l', hl, h3⟩, h4⟩
  · rintro ⟨as, a, is, h1, h2, h3, h4⟩
    obtain ⟨l', hl, hr⟩ := reads_iff.1 h3
    obtain ⟨⟨p, defs⟩, h⟩ := (Signature.C97_module_accepted_iff _ _ _ _ _).2 ⟨is, hr, h4⟩
    exact ⟨(p, a, defs), expandApp_elab.2 ⟨(Grammar.C100_app_arguments _ _ _ _).2 ⟨as, h1, h2⟩, l', hl, h⟩⟩

/-- **C102** The code generated for a module is that for the items it is read as, whose dispatchers are those of `#[app(..)]`: everything proved of `Analysis.expand` holds for the module. -/
theorem C102_code (syn : Syn) (code : Ty → Analysis.Ty) (tg : Target) (bits : Nat) (args : List Tok) (items : List TItem) (p : Analysis.Program) (a : AppArgs) :
    (∃ defs, expandApp syn code tg bits args items = .ok (p, a, defs)) ↔
      (∃ as, CommaList (AppItem syn false) args as ∧ AppMeans as a) ∧
      ∃ is, Reads syn code items is ∧ Analysis.expand tg bits { dispatchers := a.dispatchers.map Prod.fst, items := is } = .ok p := by
  rw [← Grammar.C100_app_arguments]
  constructor
  · rintro ⟨defs, h⟩
    obtain ⟨ha, l', hl, h⟩ := expandApp_elab.1 h
    obtain ⟨is, h3, h4⟩ := (Signature.C97_module_code _ _ _ _ _ _).1 ⟨_, h⟩
    exact ⟨ha, is, reads_iff.2 ⟨l', hl, h3⟩, h4⟩
  · rintro ⟨ha, is, h3, h4⟩
    obtain ⟨l', hl, hr⟩ := reads_iff.1 h3
    obtain ⟨defs, h⟩ := (Signature.C97_module_code _ _ _ _ _ _).2 ⟨is, hr, h4⟩
    exact ⟨defs, expandApp_elab.2 ⟨ha, l', hl, h⟩⟩

/-- **C102** `mock_app` (which the tests of the repository use) refuses what it refuses with the messages of `app`, and accepts what `app` accepts. -/
theorem C102_mock_app (syn : Syn) (code : Ty → Analysis.Ty) (tg : Target) (bits : Nat) (args : List Tok) (items : List TItem) :
    (∀ e, mockApp syn false code args items = .error e → expandApp syn code tg bits args items = .error e) ∧
    ∀ r, expandApp syn code tg bits args items = .ok r → mockApp syn false code args items = .ok () := by
  have key : ∀ e, mockApp syn false code args items = .error e → expandApp syn code tg bits args items = .error e := by
    intro e h
    unfold mockApp at h
    unfold expandApp
    cases h1 : parseApp syn false code args items with
    | error e1 => rw [h1] at h; cases h; rfl
    | ok x =>
      obtain ⟨a, app, defs⟩ := x
      rw [h1] at h
      simp only [bind, Except.bind] at h ⊢
      cases h2 : Analysis.check app with
      | error e2 => rw [h2] at h; cases h; rfl
      | ok u =>
        rw [h2] at h
        simp only at h ⊢
        cases h3 : Analysis.analyze app with
        | error e3 => rw [h3] at h; cases h; rfl
        | ok b => rw [h3] at h; cases h
  refine ⟨key, fun r h => ?_⟩
  cases hm : mockApp syn false code args items with
  | ok u => rfl
  | error e => rw [key e hm] at h; cases h

/-! ## C101: contents of attributes that are dropped -/

/-- `#[name = value]` becomes `#[name]` -/
def TAttr.dropValue (a : TAttr) : TAttr :=
  match a.content with
  | .nameValue => { a with content := .path }
  | _ => a

def TFn.dropValue (f : TFn) : TFn := { f with attrs := f.attrs.map TAttr.dropValue }

/-- in the functions of the module and of `extern` blocks -/
def TItem.dropValue : TItem → TItem
  | .fn f => .fn f.dropValue
  | .foreign abi l => .foreign abi (l.map fun | .fn f => .fn f.dropValue | .other => .other)
  | i => i

theorem drop_bare (a : TAttr) : a.dropValue.bare = a.bare := by
  obtain ⟨i, p, c⟩ := a
  cases c <;> rfl

theorem drop_is (a : TAttr) (n : Ident) : a.dropValue.is n = a.is n := by unfold TAttr.is; rw [drop_bare]

theorem drop_tokens (a : TAttr) : a.dropValue.tokens = a.tokens := by
  obtain ⟨i, p, c⟩ := a
  cases c <;> rfl

theorem drop_find (l : List TAttr) (n : Ident) : (l.map TAttr.dropValue).find? (·.is n) = (l.find? (·.is n)).map TAttr.dropValue := by
  rw [List.find?_map]
  congr 2
  funext a
  exact drop_is a n

theorem drop_erase (l : List TAttr) (n : Ident) : ((l.map TAttr.dropValue).eraseP (·.is n)).map TAttr.bare = (l.eraseP (·.is n)).map TAttr.bare := by
  induction l with
  | nil => rfl
  | cons a l ih =>
    rw [List.map_cons, List.eraseP_cons, List.eraseP_cons, drop_is]
    cases a.is n
    · simp only [cond_false, Bool.false_eq_true, if_false, List.map_cons, drop_bare]; rw [ih]
    · simp [Function.comp_def, drop_bare]

theorem drop_without (f : TFn) (n : Ident) : f.dropValue.without n = f.without n := by
  unfold TFn.without TFn.dropValue
  simp only [drop_erase]

theorem drop_fnItem (syn : Syn) (code : Ty → Analysis.Ty) (ext : Bool) (s : Signature.SSt) (f : TFn) : fnItem syn code ext s f.dropValue = fnItem syn code ext s f := by
  have e : ∀ n, f.dropValue.attrs.find? (·.is n) = (f.attrs.find? (·.is n)).map TAttr.dropValue := drop_find f.attrs
  have el : f.dropValue.attrs.length = f.attrs.length := by simp [TFn.dropValue]
  unfold fnItem
  simp only [e, el, drop_without]
  cases f.attrs.find? (·.is Signature.Kw.init) with
  | some a => simp only [Option.map_some, drop_tokens]; rfl
  | none =>
    cases f.attrs.find? (·.is Signature.Kw.idle) with
    | some a => simp only [Option.map_some, Option.map_none, drop_tokens]; rfl
    | none =>
      cases f.attrs.find? (·.is Signature.Kw.task) with
      | some a => simp only [Option.map_some, Option.map_none, drop_tokens]; rfl
      | none => rfl

theorem foldlM_congr {α β γ : Type} {g : β → α → Res β} {h : β → γ → Res β} {k : γ → α} (e : ∀ b a, g b (k a) = h b a) (l : List γ) (b : β) : (l.map k).foldlM g b = l.foldlM h b := by
  rw [List.foldlM_map]
  congr 1
  funext b a
  exact e b a

theorem drop_item (syn : Syn) (code : Ty → Analysis.Ty) (s : Signature.SSt) (i : TItem) : item syn code s i.dropValue = item syn code s i := by
  cases i with
  | fn f => exact drop_fnItem syn code false s f
  | struct attrs name fields => rfl
  | foreign abi l =>
    simp only [TItem.dropValue, item]
    rw [foldlM_congr (h := foreignItem syn code)]
    intro b x
    cases x with
    | fn f => exact drop_fnItem syn code true b f
    | other => rfl
  | other => rfl

/-- **C101** False of the code: the value in `#[task = value]`, `#[idle = value]` or `#[init = value]` has no effect and is not refused, whatever the module (`#[task = "priority = 2"]` makes a task of priority 0). -/
theorem C101_name_value_ignored_violated (syn : Syn) (code : Ty → Analysis.Ty) (tg : Target) (bits : Nat) (args : List Tok) (items : List TItem) :
    expandApp syn code tg bits args (items.map TItem.dropValue) = expandApp syn code tg bits args items := by
  have : parseApp syn false code args (items.map TItem.dropValue) = parseApp syn false code args items := by
    unfold parseApp
    rw [foldlM_congr (fun b a => drop_item syn code b a)]
  unfold expandApp
  rw [this]

/-! ## Reading for the tests of the repository (`Verif.Front.Ui`, `Verif.Front.Examples`) -/

/-- As `Grammar.exSyn`; types and expressions which are not identifiers or numbers are represented by one token each, whose last digit gives the form of the type. -/
def uiSyn : Syn where
  path ts := match ts with
    | .ident i :: r => some (Grammar.Path.just i, r)
    | _ => none
  exprPath ts := match (Grammar.exAttrs ts).2 with
    | .ident i :: r => some (((Grammar.exAttrs ts).1, Grammar.Path.just i), r)
    | _ => none
  expr ts := match (Grammar.exAttrs ts).2 with
    | .ident i :: r => some (.path (Grammar.exAttrs ts).1 (Grammar.Path.just i), r)
    | .amp :: .ident i :: r => some (.reference false (.path [] (Grammar.Path.just i)), r)
    | .int n _ :: r => some (.other n, r)
    | .other n :: r => some (.other n, r)
    | _ => none
  ty ts := match ts with
    | .ident i :: r => some ({ form := .path, id := i }, r)
    | .other n :: r => some ({ form := match n % 10 with | 0 => .array | 1 => .path | 2 => .ptr | 3 => .tuple | _ => .other, id := n }, r)
    | _ => none
  path_lt {ts p r} h := by split at h <;> cases h; simp
  exprPath_lt {ts p r} h := by
    have hl := Grammar.exAttrs_le ts
    split at h
    next e => cases h; rw [e] at hl; simp only [List.length_cons] at hl; omega
    next => cases h
  expr_lt {ts p r} h := by
    have hl := Grammar.exAttrs_le ts
    split at h
    next e => cases h; rw [e] at hl; simp only [List.length_cons] at hl; omega
    next e => cases h; rw [e] at hl; simp only [List.length_cons] at hl; omega
    next e => cases h; rw [e] at hl; simp only [List.length_cons] at hl; omega
    next e => cases h; rw [e] at hl; simp only [List.length_cons] at hl; omega
    next => cases h
  ty_lt {ts p r} h := by
    split at h
    next => cases h; simp
    next => cases h; simp
    next => cases h

/-- types of arguments and resources are not compared in the tests -/
def uiCode : Ty → Analysis.Ty := fun _ => 0

/-- numbers 900.. are the exceptions of the core, 950.. the two with a fixed priority -/
def uiTarget : Target := { isException := fun i => decide (900 ≤ i ∧ i < 950), isFixed := fun i => decide (950 ≤ i ∧ i < 960) }

/-- the messages without repetitions, none for a panic -/
def errors {α : Type} : Res α → List Err
  | .error (.errors es) => es.eraseDups
  | _ => []

def accepts {α : Type} : Res α → Bool
  | .ok _ => true
  | .error _ => false

/-- `#[task = ".."] async fn foo(_: foo::Context) {}` is accepted (`init`, `Shared`, `Local` as usual) -/
example : accepts (expandApp uiSyn uiCode uiTarget 3 [.ident Grammar.Kw.device, .eq, .ident 100]
  [.struct [{ path := Grammar.Path.just Signature.Kw.shared }] 101 (some []), .struct [{ path := Grammar.Path.just Signature.Kw.locals }] 102 (some []),
   .fn { attrs := [{ path := Grammar.Path.just Signature.Kw.init }], rest := { attrs := [], name := 1, inputs := [.typed 0 (.path false { segs := [{ ident := 1 }, { ident := 9 }] })], output := .type (.tuple [.path false { segs := [{ ident := 101 }] }, .path false { segs := [{ ident := 102 }] }]) } },
   .fn { attrs := [{ path := Grammar.Path.just Signature.Kw.task, content := .nameValue }], rest := { attrs := [], name := 103, isAsync := true, inputs := [.typed 0 (.path false { segs := [{ ident := 103 }, { ident := 9 }] })] } }]) = true := by
  decide +kernel

end Verif.Front
