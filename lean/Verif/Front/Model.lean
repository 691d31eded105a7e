import Verif.Signature.Model
import Verif.Grammar.Bridge

/-!
# The macro from the tokens of the attributes to the code

`Verif.Analysis` and `Verif.Signature` begin with arguments that have been read; `Verif.Grammar` reads arguments. Here they are put together as in the macro: `parse::app`
(`rtic-macros/src/syntax/parse.rs:23-28`), `App::parse` (`parse/app.rs:172-548`), `syntax::parse2` (`syntax.rs:104-117`), `lib.rs:33-52`.

The items come from `syn` (`Input::parse`, `parse.rs:30-70`): attributes with their tokens, signatures, fields. Of attributes other than those the macro reads (`init`, `idle`, `task`) the
tokens are not kept in the result.
-/

namespace Verif.Front
open Verif.Analysis (Ident Res Err err Map HwTask SwTask PSt has checkIdent checkBinding insertNew)
open Verif.Signature (Path Attr Fn Field Abi Ty Kw.init Kw.idle Kw.task Kw.shared Kw.locals SSt Def parseInit parseIdle parseHardware parseSoftware parseSharedRes parseLocalRes abiIsRust attrEq finish)
open Verif.Grammar (Syn Tok HwArgs SwArgs)

/-- `syn::Meta`: `#[path]`, `#[path(..)]`, `#[path = ..]` -/
inductive Meta where
  | path
  | list (tokens : List Tok)
  | nameValue

/-- `syn::Attribute` -/
structure TAttr where
  inner : Bool := false
  path : Path
  content : Meta := .path

/-- `syn::ItemFn`, `syn::ForeignItemFn`: the attributes, and the rest (whose field `attrs` is not used) -/
structure TFn where
  attrs : List TAttr
  rest : Fn

/-- a field of a struct: the attributes, and the rest (whose field `attrs` is not used) -/
structure TField where
  attrs : List TAttr := []
  rest : Field

/-- `syn::ForeignItem` -/
inductive TFItem where
  | fn (f : TFn)
  | other

/-- `syn::Item` -/
inductive TItem where
  | fn (f : TFn)
  | struct (attrs : List TAttr) (name : Ident) (fields : Option (List TField))
  | foreign (abi : Abi) (items : List TFItem)
  | other

/-- the attribute without its content -/
def TAttr.bare (a : TAttr) : Attr := { inner := a.inner, path := a.path }

/-- `attr_eq`, `util.rs:22-27`, which does not look at the content -/
def TAttr.is (a : TAttr) (name : Ident) : Bool := attrEq a.bare name

/-- `attr.parse_args().unwrap_or_default()`, `app.rs:229`, `249`, `279` etc.: the tokens in the parentheses, none if there are no parentheses -/
def TAttr.tokens (a : TAttr) : List Tok :=
  match a.content with
  | .list ts => ts
  | _ => []

/-- the function without the first attribute `name`, as handed to `Init::parse` etc. -/
def TFn.without (f : TFn) (name : Ident) : Fn := { f.rest with attrs := (f.attrs.eraseP (·.is name)).map TAttr.bare }

/-- an attribute that cannot be read is an error (`?` after `task_args` etc.) -/
def orErr {α : Type} : Option α → Res α
  | some a => .ok a
  | none => err .badArgs

/-- a function of the module, `app.rs:222-305`, or of an `extern` block, `app.rs:398-489` -/
def fnItem (syn : Syn) (code : Ty → Analysis.Ty) (ext : Bool) (s : SSt) (f : TFn) : Res SSt :=
  match f.attrs.find? (·.is Kw.init) with
  | some a => do
    let l ← orErr (Grammar.initArgs syn a.tokens)
    if s.p.init.isSome then err .initTwice
    else
      let p ← checkIdent s.p f.rest.name
      match parseInit ext (f.without Kw.init) with
      | some (d, us, ul) => pure { p := { p with init := some { name := f.rest.name, locals := Grammar.eraseLocals l, userShared := us, userLocal := ul } }, defs := s.defs ++ [d] }
      | none => err .badSignature
  | none =>
    match f.attrs.find? (·.is Kw.idle) with
    | some a => do
      let m ← orErr (Grammar.idleArgs syn a.tokens)
      if s.p.idle.isSome then err .idleTwice
      else
        let p ← checkIdent s.p f.rest.name
        match parseIdle ext (f.without Kw.idle) with
        | some d => pure { p := { p with idle := some { name := f.rest.name, shared := m.1, locals := Grammar.eraseLocals m.2 } }, defs := s.defs ++ [d] }
        | none => err .badSignature
    | none =>
      match f.attrs.find? (·.is Kw.task) with
      | some a =>
        if has s.p.hw f.rest.name || has s.p.sw f.rest.name then err .taskTwice
        -- `extern` only, `app.rs:454-459`
        else if ext && f.attrs.length != 1 then err .externAttr
        else do
          let t ← orErr (Grammar.taskArgs syn a.tokens)
          match t with
          | .inl t =>
            let p ← checkBinding s.p t.binds
            let p ← checkIdent p f.rest.name
            match parseHardware ext (f.without Kw.task) with
            | some d => pure { p := { p with hw := p.hw ++ [(f.rest.name, t.erase)] }, defs := s.defs ++ [d] }
            | none => err .badSignature
          | .inr t =>
            let p ← checkIdent s.p f.rest.name
            match parseSoftware ext (f.without Kw.task) with
            | some d => pure { p := { p with sw := p.sw ++ [(f.rest.name, t.erase (d.inputs.map fun i => code i.2))] }, defs := s.defs ++ [d] }
            | none => err .badSignature
      -- `app.rs:300-303`, `app.rs:483-489`
      | none => if ext then err .externAttr else pure s

/-- an item of an `extern` block, `app.rs:398-496` -/
def foreignItem (syn : Syn) (code : Ty → Analysis.Ty) (s : SSt) : TFItem → Res SSt
  | .fn f => fnItem syn code true s f
  | .other => err .externItem

/-- the field as `resource.rs` looks at it -/
def TField.read (f : TField) : Field := { f.rest with attrs := f.attrs.map TAttr.bare }

/-- one round of the loop over the items, `app.rs:220-507` -/
def item (syn : Syn) (code : Ty → Analysis.Ty) (s : SSt) : TItem → Res SSt
  | .fn f => fnItem syn code false s f
  -- lines 307-389
  | .struct attrs name fields =>
    if attrs.any (·.is Kw.shared) then
      if !s.p.sharedRes.isEmpty then err .structTwice
      else match fields with
        | some fs => do
          let m ← (fs.map fun f => parseSharedRes code f.read).foldlM (insertNew .fieldTwice) s.p.sharedRes
          pure { s with p := { s.p with sharedIdent := some name, sharedRes := m } }
        | none => err .namedFields
    else if attrs.any (·.is Kw.locals) then
      if !s.p.localRes.isEmpty then err .structTwice
      else match fields with
        | some fs => do
          let m ← (fs.map fun f => parseLocalRes code f.read).foldlM (insertNew .fieldTwice) s.p.localRes
          pure { s with p := { s.p with localIdent := some name, localRes := m } }
        | none => err .namedFields
    else pure s
  -- lines 390-501
  | .foreign abi items => if abiIsRust abi then items.foldlM (foreignItem syn code) s else err .abi
  | .other => pure s

/-- `parse::app`, `parse.rs:23-28`: the arguments of `#[app(..)]`, then the items -/
def parseApp (syn : Syn) (clint : Bool) (code : Ty → Analysis.Ty) (args : List Tok) (items : List TItem) : Res (Grammar.AppArgs × Analysis.App × List Def) := do
  let a ← orErr (Grammar.appArgs syn clint args)
  let s ← items.foldlM (item syn code) {}
  let app ← finish (a.dispatchers.map Prod.fst) s.p
  pure (a, app, s.defs)

/-- `syntax::parse2`, `syntax.rs:104-117`, which is all that `mock_app` does (`lib.rs:17-25`) -/
def mockApp (syn : Syn) (clint : Bool) (code : Ty → Analysis.Ty) (args : List Tok) (items : List TItem) : Res Unit := do
  let (_, app, _) ← parseApp syn clint code args items
  Analysis.check app
  let _ ← Analysis.analyze app
  pure ()

/-- `#[app(..)]` for Cortex-M, `lib.rs:33-52`: the semantic content of the code, the arguments, what is kept of the functions -/
def expandApp (syn : Syn) (code : Ty → Analysis.Ty) (tg : Analysis.Target) (bits : Nat) (args : List Tok) (items : List TItem) : Res (Analysis.Program × Grammar.AppArgs × List Def) := do
  let (a, app, defs) ← parseApp syn false code args items
  Analysis.check app
  let base ← Analysis.analyze app
  Analysis.archCheck tg app
  let an ← Analysis.fullAnalyze base app
  let p ← Analysis.codegen tg app an
  if Analysis.fits bits app an then pure (p, a, defs) else err .prioRange

end Verif.Front
