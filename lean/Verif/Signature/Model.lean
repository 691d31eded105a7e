import Verif.Signature.Syntax
import Verif.Analysis.Model

/-!
# Parsing of the items

Model of `rtic-macros/src/syntax/parse/util.rs:15-92,281-427`, `init.rs`, `idle.rs`, `hardware_task.rs`, `software_task.rs`, `resource.rs` and of the loop over the items in `app.rs:220-507`,
including `extern` blocks.
-/

namespace Verif.Signature
open Verif.Analysis (Ident TaskArg Res Err err Map HwTask SwTask PSt SharedRes has initArgs idleArgs taskArgs checkIdent checkBinding insertNew parseDispatchers)

/-! ## `util.rs` -/

/-- `abi_is_rust`, `util.rs:15-20` -/
def abiIsRust (a : Abi) : Bool :=
  match a.name with
  | none => true
  | some s => s == Kw.rust

/-- `attr_eq`, `util.rs:22-27` -/
def attrEq (a : Attr) (name : Ident) : Bool :=
  !a.inner && match a.path.segs with
    | [s] => s.args == .none && s.ident == name
    | _ => false

/-- `check_fn_signature`, `util.rs:38-47`, and `check_foreign_fn_signature`, `util.rs:50-59` (the same text) -/
def checkFnSignature (f : Fn) (allowAsync : Bool) : Bool :=
  !f.isPub && !f.isConst && (!f.isAsync || allowAsync) && f.abi.isNone && !f.isUnsafe && f.generics == 0 && !f.whereClause && !f.variadic

/-- `FilterAttrs`, `util.rs:61-65` -/
structure FilterAttrs where
  cfgs : List Attr := []
  docs : List Attr := []
  attrs : List Attr := []

/-- `filter_attributes`, `util.rs:67-83` -/
def filterAttributes (l : List Attr) : FilterAttrs :=
  l.foldl (fun s a => if attrEq a Kw.cfg then { s with cfgs := s.cfgs ++ [a] } else if attrEq a Kw.doc then { s with docs := s.docs ++ [a] } else { s with attrs := s.attrs ++ [a] }) {}

/-- `extract_lock_free`, `util.rs:85-92`: the answer and the remaining attributes -/
def extractLockFree (l : List Attr) : Bool × List Attr :=
  match l.findIdx? (attrEq · Kw.lockFree) with
  | some pos => (true, l.eraseIdx pos)
  | none => (false, l)

/-- `TaskType`, `util.rs:281-288` -/
inductive TaskType where
  | softwareExternNotBottom
  | other
deriving DecidableEq

/-- `allowed_lifetime`, `util.rs:384-408`, for the last segment -/
def lifetimeOk : Option Seg → Bool
  | some { args := .angle args, .. } =>
    if args.isEmpty then true
    else if args.length ≠ 1 then false
    else match args.getLast? with
      | some (.lifetime n) => n != Kw.static
      | _ => false
  | some { args := .none, .. } => true
  | _ => false

/-- `is_valid_context`, `util.rs:371-414` -/
def isValidContext (ty : Ty) (segments : List Ident) (tt : TaskType) : Bool :=
  match ty with
  | .path false p =>
    let isValidPath := p.segs.length == segments.length && (p.segs.zip segments).all fun lr => lr.1.ident == lr.2
    let allowedLifetime := tt == .other || lifetimeOk p.segs.getLast?
    isValidPath && allowedLifetime
  | _ => false

/-- the `collect::<Result<Vec<_>, _>>()` of `util.rs:302-307` -/
def typedAll : List FnArg → Option (List (Nat × Ty))
  | [] => some []
  | .typed p t :: l => (typedAll l).map ((p, t) :: ·)
  | .receiver :: _ => none

/-- `parse_inputs`, `util.rs:292-316`; the outer option is that of the code, the inner one its `Result` -/
def parseInputs (inputs : List FnArg) (name : Ident) (tt : TaskType) : Option (Nat × Option (List (Nat × Ty))) :=
  match inputs with
  | .typed pat ty :: rest => if isValidContext ty [name, Kw.context] tt then some (pat, typedAll rest) else none
  | _ => none

/-- `type_is_bottom`, `util.rs:318-324` -/
def typeIsBottom : Ret → Bool
  | .type .never => true
  | _ => false

/-- `type_is_unit`, `util.rs:417-427` -/
def typeIsUnit : Ret → Bool
  | .type (.tuple elems) => elems.isEmpty
  | .type _ => false
  | .default => true

/-- `extract_init_resource_name_ident`, `util.rs:326-341` -/
def initResourceName : Ty → Option Ident
  | .path _ p =>
    match p.segs with
    | [s] => if p.leadingColon || s.args != .none then none else some s.ident
    | _ => none
  | _ => none

/-- `type_is_init_return`, `util.rs:344-369` -/
def typeIsInitReturn : Ret → Option (Ident × Ident)
  | .default => none
  | .type (.tuple elems) =>
    match elems with
    | [a, b] => do
      let x ← initResourceName a
      let y ← initResourceName b
      pure (x, y)
    | _ => none
  | .type _ => none

/-! ## the functions -/

/-- What is kept of a function for the code generator (the fields of `Init`, `Idle`, `HardwareTask`, `SoftwareTask` besides `args`). -/
structure Def where
  name : Ident
  context : Nat
  inputs : List (Nat × Ty) := []
  isExtern : Bool
  isBottom : Bool := false
  cfgs : List Attr := []
  attrs : List Attr := []

/-- `Init::parse`, `init.rs:16-52`, and `Init::parse_foreign`, `init.rs:54-91` -/
def parseInit (ext : Bool) (f : Fn) : Option (Def × Ident × Ident) :=
  if checkFnSignature f false && f.inputs.length == 1 then
    match typeIsInitReturn f.output with
    | some (us, ul) =>
      match parseInputs f.inputs f.name .other with
      | some (c, some rest) => if rest.isEmpty then some ({ name := f.name, context := c, isExtern := ext, attrs := f.attrs }, us, ul) else none
      | _ => none
    | none => none
  else none

/-- `Idle::parse`, `idle.rs:16-44`, and `Idle::parse_foreign`, `idle.rs:46-74` -/
def parseIdle (ext : Bool) (f : Fn) : Option Def :=
  if checkFnSignature f false && f.inputs.length == 1 && typeIsBottom f.output then
    match parseInputs f.inputs f.name .other with
    | some (c, some rest) => if rest.isEmpty then some { name := f.name, context := c, isExtern := ext, isBottom := true, attrs := f.attrs } else none
    | _ => none
  else none

/-- `HardwareTask::parse`, `hardware_task.rs:10-41`, and `HardwareTask::parse_foreign`, `hardware_task.rs:45-79` -/
def parseHardware (ext : Bool) (f : Fn) : Option Def :=
  if checkFnSignature f false && f.inputs.length == 1 && typeIsUnit f.output then
    match parseInputs f.inputs f.name .other with
    | some (c, some rest) =>
      if rest.isEmpty then
        let fa := filterAttributes f.attrs
        some { name := f.name, context := c, isExtern := ext, cfgs := fa.cfgs, attrs := fa.attrs }
      else none
    | _ => none
  else none

/-- `SoftwareTask::parse`, `software_task.rs:10-43`, and `SoftwareTask::parse_foreign`, `software_task.rs:46-90` -/
def parseSoftware (ext : Bool) (f : Fn) : Option Def :=
  let isBottom := typeIsBottom f.output
  let tt := if ext && !isBottom then TaskType.softwareExternNotBottom else .other
  if checkFnSignature f true && (typeIsUnit f.output || isBottom) && f.isAsync then
    match parseInputs f.inputs f.name tt with
    | some (c, some inputs) =>
      let fa := filterAttributes f.attrs
      some { name := f.name, context := c, inputs := inputs, isExtern := ext, isBottom := isBottom, cfgs := fa.cfgs, attrs := fa.attrs }
    | _ => none
  else none

/-! ## the resources -/

/-- `SharedResource::parse`, `resource.rs:9-27` -/
def parseSharedRes (code : Ty → Analysis.Ty) (f : Field) : Ident × SharedRes :=
  let fa := filterAttributes f.attrs
  (f.name, { ty := code f.ty, lockFree := (extractLockFree fa.attrs).1 })

/-- `LocalResource::parse`, `resource.rs:31-41` -/
def parseLocalRes (code : Ty → Analysis.Ty) (f : Field) : Ident × Analysis.Ty := (f.name, code f.ty)

/-! ## the items -/

/-- local variables of `App::parse`, `app.rs:175-192`; `defs`: what is kept of the functions -/
structure SSt where
  p : PSt := {}
  defs : List Def := []

/-- the value of `item.attrs.remove(pos).parse_args().unwrap_or_default()` for the attribute found -/
def argsOf (a : Attr) : List TaskArg := a.args.getD []

/-- a function of the module, `app.rs:222-305`, or of an `extern` block, `app.rs:398-489` -/
def fnItem (code : Ty → Analysis.Ty) (ext : Bool) (s : SSt) (f : Fn) : Res SSt :=
  match f.attrs.find? (attrEq · Kw.init) with
  | some a => do
    let l ← initArgs (argsOf a)
    if s.p.init.isSome then err .initTwice
    else
      let p ← checkIdent s.p f.name
      match parseInit ext { f with attrs := f.attrs.eraseP (attrEq · Kw.init) } with
      | some (d, us, ul) => pure { p := { p with init := some { name := f.name, locals := l, userShared := us, userLocal := ul } }, defs := s.defs ++ [d] }
      | none => err .badSignature
  | none =>
    match f.attrs.find? (attrEq · Kw.idle) with
    | some a => do
      let (sh, l) ← idleArgs (argsOf a)
      if s.p.idle.isSome then err .idleTwice
      else
        let p ← checkIdent s.p f.name
        match parseIdle ext { f with attrs := f.attrs.eraseP (attrEq · Kw.idle) } with
        | some d => pure { p := { p with idle := some { name := f.name, shared := sh, locals := l } }, defs := s.defs ++ [d] }
        | none => err .badSignature
    | none =>
      match f.attrs.find? (attrEq · Kw.task) with
      | some a =>
        if has s.p.hw f.name || has s.p.sw f.name then err .taskTwice
        -- `extern` only, `app.rs:454-459`
        else if ext && f.attrs.length != 1 then err .externAttr
        else do
          let t ← taskArgs (argsOf a) []
          match t with
          | .inl t =>
            let p ← checkBinding s.p t.binds
            let p ← checkIdent p f.name
            match parseHardware ext { f with attrs := f.attrs.eraseP (attrEq · Kw.task) } with
            | some d => pure { p := { p with hw := p.hw ++ [(f.name, t)] }, defs := s.defs ++ [d] }
            | none => err .badSignature
          | .inr t =>
            let p ← checkIdent s.p f.name
            match parseSoftware ext { f with attrs := f.attrs.eraseP (attrEq · Kw.task) } with
            | some d => pure { p := { p with sw := p.sw ++ [(f.name, { t with inputs := d.inputs.map fun i => code i.2 })] }, defs := s.defs ++ [d] }
            | none => err .badSignature
      -- `app.rs:300-303`, `app.rs:483-489`
      | none => if ext then err .externAttr else pure s

/-- an item of an `extern` block, `app.rs:398-496` -/
def foreignItem (code : Ty → Analysis.Ty) (s : SSt) : FItem → Res SSt
  | .fn f => fnItem code true s f
  | .other => err .externItem

/-- one round of the loop over the items, `app.rs:220-507` -/
def synItem (code : Ty → Analysis.Ty) (s : SSt) : SItem → Res SSt
  | .fn f => fnItem code false s f
  -- lines 307-389
  | .struct attrs name fields =>
    if attrs.any (attrEq · Kw.shared) then
      if !s.p.sharedRes.isEmpty then err .structTwice
      else match fields with
        | some fs => do
          let m ← (fs.map (parseSharedRes code)).foldlM (insertNew .fieldTwice) s.p.sharedRes
          pure { s with p := { s.p with sharedIdent := some name, sharedRes := m } }
        | none => err .namedFields
    else if attrs.any (attrEq · Kw.locals) then
      if !s.p.localRes.isEmpty then err .structTwice
      else match fields with
        | some fs => do
          let m ← (fs.map (parseLocalRes code)).foldlM (insertNew .fieldTwice) s.p.localRes
          pure { s with p := { s.p with localIdent := some name, localRes := m } }
        | none => err .namedFields
    else pure s
  -- lines 390-501
  | .foreign abi items => if abiIsRust abi then items.foldlM (foreignItem code) s else err .abi
  | .other => pure s

/-- the end of `App::parse`, `app.rs:509-547` (as in `Verif.Analysis.parse`) -/
def finish (ds : List Ident) (s : PSt) : Res Analysis.App :=
  match s.sharedIdent, s.localIdent, s.init with
  | some si, some li, some init =>
    if si ≠ init.userShared then err .structName
    else if li ≠ init.userLocal then err .structName
    else pure { dispatchers := ds, init := init, idle := s.idle, sharedRes := s.sharedRes, localRes := s.localRes, hw := s.hw, sw := s.sw }
  | _, _, _ => .error .missing

/-- `parse::app`, `parse.rs:23-28`: the application and what is kept of its functions -/
def parseApp (code : Ty → Analysis.Ty) (dispatchers : List Ident) (items : List SItem) : Res (Analysis.App × List Def) := do
  let ds ← parseDispatchers dispatchers
  let s ← items.foldlM (synItem code) {}
  let app ← finish ds s.p
  pure (app, s.defs)

/-- The macro on a module, `lib.rs:33-52`, for Cortex-M (`Verif.Analysis.expand` with the parser above): the semantic content of the code and what is kept of the functions. -/
def expandApp (code : Ty → Analysis.Ty) (tg : Analysis.Target) (bits : Nat) (dispatchers : List Ident) (items : List SItem) : Res (Analysis.Program × List Def) := do
  let (app, defs) ← parseApp code dispatchers items
  Analysis.check app
  let base ← Analysis.analyze app
  Analysis.archCheck tg app
  let an ← Analysis.fullAnalyze base app
  let p ← Analysis.codegen tg app an
  if Analysis.fits bits app an then pure (p, defs) else err .prioRange

end Verif.Signature
