import Verif.Signature.Model

/-!
# The arguments of the attributes, read from tokens

Model of `rtic-macros/src/syntax/parse.rs:72-345` (`init_args`, `idle_args`, `task_args`), `parse/util.rs:94-279` (lists of resources), `parse/app.rs:24-170` (`AppArgs::parse`) and
`syntax/backend/*.rs`.

Paths, types and expressions are read by the crate `syn`, which is not part of the repository: its parsers are parameters (`Syn`), of which only is known that they consume tokens. A parser
returns what it has read and the remaining tokens; `none` is an error (the messages are not modelled). Loops are bounded by the number of tokens; that the bound is never reached is part
of the proofs (`Verif.Grammar.Lemmas`).
-/

namespace Verif.Grammar
open Verif.Analysis (Ident Access Map has)
open Verif.Signature (Attr Path Seg attrEq filterAttributes)

/-! The identifiers the macro knows, besides those of `Verif.Signature.Kw`. -/
namespace Kw
abbrev shared : Ident := Verif.Signature.Kw.shared
abbrev locals : Ident := Verif.Signature.Kw.locals
abbrev binds : Ident := 13
abbrev priority : Ident := 14
abbrev localTask : Ident := 15
abbrev device : Ident := 16
abbrev core : Ident := 17
abbrev peripherals : Ident := 18
abbrev dispatchers : Ident := 19
abbrev backend : Ident := 20
end Kw

/-- Tokens (`proc_macro2::TokenTree`). Identifiers are those that are no keywords. -/
inductive Tok where
  | ident (i : Ident)
  | eq
  | comma
  | colon
  | amp
  /-- an integer literal -/
  | int (value : Nat) (suffixed : Bool)
  | bool (b : Bool)
  /-- `[ .. ]` -/
  | bracket (content : List Tok)
  /-- `#[ .. ]` (two tokens) -/
  | attr (a : Attr)
  | other (what : Nat)

/-- `syn::Expr`, as far as it is inspected -/
inductive Expr where
  | path (attrs : List Attr) (p : Path)
  | reference (mutable : Bool) (e : Expr)
  | other (what : Nat)

/-- the variants of `syn::Type` that are distinguished in `util.rs:212-224` -/
inductive TyForm where
  | array | path | ptr | tuple | other
deriving DecidableEq

/-- `syn::Type`: the variant, and a number for the type -/
structure GTy where
  form : TyForm
  id : Nat

/-- The parsers of `syn` for paths (`Path::parse`), path expressions (`ExprPath::parse`), expressions and types: any that consume something when they succeed. -/
structure Syn where
  path : List Tok → Option (Path × List Tok)
  exprPath : List Tok → Option ((List Attr × Path) × List Tok)
  expr : List Tok → Option (Expr × List Tok)
  ty : List Tok → Option (GTy × List Tok)
  path_lt : ∀ {ts p r}, path ts = some (p, r) → r.length < ts.length
  exprPath_lt : ∀ {ts p r}, exprPath ts = some (p, r) → r.length < ts.length
  expr_lt : ∀ {ts e r}, expr ts = some (e, r) → r.length < ts.length
  ty_lt : ∀ {ts t r}, ty ts = some (t, r) → r.length < ts.length

/-- `TaskLocal`, `ast.rs:338-343`, with what `Local` (`ast.rs:321-333`) keeps of a declaration -/
inductive GLocal where
  | external
  | declared (attrs cfgs : List Attr) (ty : Nat) (expr : Expr)

/-- `Punctuated::<Expr, Token![,]>::parse_terminated` of `syn`, used in `util.rs:99`; the same loop is in `ExprArray::parse`, used in `app.rs:88` -/
def terminated (syn : Syn) : Nat → List Tok → Option (List Expr)
  | _, [] => some []
  | 0, _ :: _ => none
  | n + 1, t :: ts =>
    match syn.expr (t :: ts) with
    | some (e, []) => some [e]
    | some (e, .comma :: r) => (terminated syn n r).map (e :: ·)
    | _ => none

/-- `extract_resource_name_ident`, `util.rs:131-143` -/
def resourceName (p : Path) : Option Ident :=
  if p.leadingColon then none
  else match p.segs with
    | [s] => if s.args = .none then some s.ident else none
    | _ => none

/-- the `match e` of `util.rs:104-114` -/
def accessOf : Expr → Option (Access × Path)
  | .path _ p => some (.exclusive, p)
  | .reference false (.path _ p) => some (.shared, p)
  | _ => none

/-- one round of the loop of `parse_shared_resources`, `util.rs:99-126` -/
def sharedStep (m : Map Access) (e : Expr) : Option (Map Access) := do
  let (a, p) ← accessOf e
  let i ← resourceName p
  if has m i then none else some (m ++ [(i, a)])

/-- `parse_shared_resources`, `util.rs:94-129` -/
def parseSharedResources (syn : Syn) : List Tok → Option (Map Access × List Tok)
  | .bracket inner :: rest => do
    let es ← terminated syn inner.length inner
    let m ← es.foldlM sharedStep []
    pure (m, rest)
  | _ => none

/-- the types allowed in a declaration, `util.rs:212-224` -/
def supported (t : GTy) : Bool := t.form == .array || t.form == .path || t.form == .ptr || t.form == .tuple

/-- the optional comma after a declaration, `util.rs:207-210` -/
def optComma : List Tok → List Tok
  | .comma :: r => r
  | r => r

/-- `TYPE = EXPR ,?` after the colon of a declaration, `util.rs:191-231` -/
def localDecl (syn : Syn) (attrs cfgs : List Attr) (ts : List Tok) : Option (GLocal × List Tok) := do
  let (ty, r) ← syn.ty ts
  match r with
  | .eq :: r =>
    let (e, r) ← syn.expr r
    if supported ty then some (.declared attrs cfgs ty.id e, optComma r) else none
  | _ => none

/-- one round of the loop of `parse_local_resources` up to the insertion, `util.rs:154-259` -/
def localEntry (syn : Syn) (ts : List Tok) : Option ((Ident × GLocal) × List Tok) := do
  let ((as, p), r) ← syn.exprPath ts
  let name ← resourceName p
  let cfgs := (filterAttributes as).cfgs
  let attrs := (filterAttributes as).attrs
  match r with
  | .colon :: r =>
    let (l, r) ← localDecl syn attrs cfgs r
    pure ((name, l), r)
  | .eq :: _ => none
  | .comma :: r => if attrs.isEmpty then some ((name, .external), r) else none
  | [] => some ((name, .external), [])
  | _ => none

/-- the loop of `parse_local_resources`, `util.rs:154-269` -/
def localLoop (syn : Syn) : Nat → Map GLocal → List Tok → Option (Map GLocal)
  | _, m, [] => some m
  | 0, _, _ :: _ => none
  | n + 1, m, t :: ts =>
    match localEntry syn (t :: ts) with
    | some (kv, r) => if has m kv.1 then none else localLoop syn n (m ++ [kv]) r
    | none => none

/-- `parse_local_resources`, `util.rs:145-279` -/
def parseLocalResources (syn : Syn) : List Tok → Option (Map GLocal × List Tok)
  | .bracket inner :: rest => do
    let m ← localLoop syn inner.length [] inner
    if m.isEmpty then none else some (m, rest)
  | _ => none

/-- the local variables of `init_args`, `idle_args`, `task_args` -/
structure St where
  binds : Option Ident := none
  priority : Option Nat := none
  shared : Option (Map Access) := none
  locals : Option (Map GLocal) := none
  localTask : Option Bool := none

/-- the branch `"shared"`, `parse.rs:146-155`, `275-284` -/
def sharedArg (syn : Syn) (s : St) (r : List Tok) : Option (St × List Tok) :=
  if s.shared.isSome then none
  else match parseSharedResources syn r with
    | some (m, r) => some ({ s with shared := some m }, r)
    | none => none

/-- the branch `"local"`, `parse.rs:88-97`, `157-166`, `286-295` -/
def localArg (syn : Syn) (s : St) (r : List Tok) : Option (St × List Tok) :=
  if s.locals.isSome then none
  else match parseLocalResources syn r with
    | some (m, r) => some ({ s with locals := some m }, r)
    | none => none

/-- the branch `"binds"`, `parse.rs:231-243` -/
def bindsArg (s : St) : List Tok → Option (St × List Tok)
  | .ident i :: r => if s.binds.isSome then none else some ({ s with binds := some i }, r)
  | _ => none

/-- the branch `"priority"`, `parse.rs:245-273` -/
def priorityArg (s : St) : List Tok → Option (St × List Tok)
  | .int n suffixed :: r => if s.priority.isSome then none else if suffixed then none else if n ≤ 255 then some ({ s with priority := some n }, r) else none
  | _ => none

/-- the branch `"local_task"`, `parse.rs:210-225`: the equal sign and the value are optional -/
def localTaskArg (s : St) : List Tok → Option (St × List Tok)
  | .eq :: .bool b :: r => if s.localTask.isSome then none else some ({ s with localTask := some b }, r)
  | .eq :: _ => none
  | r => if s.localTask.isSome then none else some ({ s with localTask := some true }, r)

/-- one round of the loop of `task_args`, `parse.rs:206-301` -/
def taskArg (syn : Syn) (s : St) : List Tok → Option (St × List Tok)
  | .ident k :: r =>
    if k = Kw.localTask then localTaskArg s r
    else match r with
      | .eq :: r =>
        if k = Kw.binds then bindsArg s r
        else if k = Kw.priority then priorityArg s r
        else if k = Kw.shared then sharedArg syn s r
        else if k = Kw.locals then localArg syn s r
        else none
      | _ => none
  | _ => none

/-- the loop of `task_args`, `parse.rs:201-301`, and of `AppArgs::parse`, `app.rs:34-152`: the tokens may end after a comma -/
def commaLoop {σ : Type} (arg : σ → List Tok → Option (σ × List Tok)) : Nat → σ → List Tok → Option σ
  | _, s, [] => some s
  | 0, _, _ :: _ => none
  | n + 1, s, t :: ts =>
    match arg s (t :: ts) with
    | some (s, []) => some s
    | some (s, .comma :: r) => commaLoop arg n s r
    | _ => none

/-- `HardwareTaskArgs`, `ast.rs:304-316` -/
structure HwArgs where
  binds : Ident
  priority : Nat
  shared : Map Access
  locals : Map GLocal

/-- `SoftwareTaskArgs`, `ast.rs:250-264` -/
structure SwArgs where
  priority : Nat
  shared : Map Access
  locals : Map GLocal
  localTask : Bool

/-- the end of `task_args`, `parse.rs:303-343` -/
def taskFinish (s : St) : Option (Sum HwArgs SwArgs) :=
  match s.binds with
  | some b =>
    if s.priority.getD 1 = 0 then none
    else some (.inl { binds := b, priority := s.priority.getD 1, shared := s.shared.getD [], locals := s.locals.getD [] })
  | none => some (.inr { priority := s.priority.getD 0, shared := s.shared.getD [], locals := s.locals.getD [], localTask := s.localTask.getD false })

/-- `task_args`, `parse.rs:189-345` -/
def taskArgs (syn : Syn) (ts : List Tok) : Option (Sum HwArgs SwArgs) := (commaLoop (taskArg syn) ts.length {} ts).bind taskFinish

/-- one round of the loop of `init_args`, `parse.rs:82-103` -/
def initArg (syn : Syn) (s : St) : List Tok → Option (St × List Tok)
  | .ident k :: .eq :: r => if k = Kw.locals then localArg syn s r else none
  | _ => none

/-- one round of the loop of `idle_args`, `parse.rs:140-170` -/
def idleArg (syn : Syn) (s : St) : List Tok → Option (St × List Tok)
  | .ident k :: .eq :: r => if k = Kw.shared then sharedArg syn s r else if k = Kw.locals then localArg syn s r else none
  | _ => none

/-- the loops of `init_args`, `parse.rs:81-110`, and `idle_args`, `parse.rs:139-177`: after a comma there must be another argument -/
def strictLoop (arg : St → List Tok → Option (St × List Tok)) : Nat → St → List Tok → Option St
  | 0, _, _ => none
  | n + 1, s, ts =>
    match arg s ts with
    | some (s, []) => some s
    | some (s, .comma :: r) => strictLoop arg n s r
    | _ => none

def isExternal : GLocal → Bool
  | .external => true
  | .declared .. => false

/-- `init_args`, `parse.rs:72-127` -/
def initArgs (syn : Syn) : List Tok → Option (Map GLocal)
  | [] => some []
  | t :: ts => do
    let s ← strictLoop (initArg syn) (ts.length + 1) {} (t :: ts)
    if (s.locals.getD []).any (fun kv => isExternal kv.2) then none else pure (s.locals.getD [])

/-- `idle_args`, `parse.rs:129-187` -/
def idleArgs (syn : Syn) : List Tok → Option (Map Access × Map GLocal)
  | [] => some ([], [])
  | t :: ts => do
    let s ← strictLoop (idleArg syn) (ts.length + 1) {} (t :: ts)
    pure (s.shared.getD [], s.locals.getD [])

/-! ## `#[app(..)]` -/

/-- `AppArgs`, `ast.rs:62-78`, and the local variables of `AppArgs::parse` (`device` is mandatory only at the end) -/
structure AppSt where
  custom : List Ident := []
  device : Option Path := none
  core : Bool := true
  peripherals : Bool := true
  dispatchers : Map (List Attr) := []
  backend : Option Ident := none

/-- one element of `dispatchers = [..]`, `app.rs:90-118` -/
def dispatcherStep (m : Map (List Attr)) : Expr → Option (Map (List Attr))
  | .path attrs p =>
    if p.leadingColon then none
    else match p.segs with
      | [s] => if has m s.ident then none else some (m ++ [(s.ident, attrs)])
      | _ => none
  | _ => none

/-- `BackendArgs::parse`, `backend/riscv_slic.rs:14-27` with the feature `riscv-clint` (an identifier); no other backend takes arguments (`cortex.rs`, `esp32c3.rs`, `esp32c6.rs`,
`riscv_slic.rs` with `riscv-mecall`) -/
def backendArgs (clint : Bool) : List Tok → Option (Ident × List Tok)
  | .ident i :: r => if clint then some (i, r) else none
  | _ => none

/-- one round of the loop of `AppArgs::parse`, `app.rs:39-145` -/
def appArg (syn : Syn) (clint : Bool) (s : AppSt) : List Tok → Option (AppSt × List Tok)
  | .ident k :: .eq :: r =>
    if k ∈ s.custom then none
    else
      let s := { s with custom := k :: s.custom }
      if k = Kw.device then
        match syn.path r with
        | some (p, r) => some ({ s with device := some p }, r)
        | none => none
      else if k = Kw.core then
        match r with
        | .bool b :: r => some ({ s with core := b }, r)
        | _ => none
      else if k = Kw.peripherals then
        match r with
        | .bool b :: r => some ({ s with peripherals := b }, r)
        | _ => none
      else if k = Kw.dispatchers then
        match r with
        | .bracket inner :: r =>
          match (terminated syn inner.length inner).bind (·.foldlM dispatcherStep s.dispatchers) with
          | some m => some ({ s with dispatchers := m }, r)
          | none => none
        | _ => none
      else if k = Kw.backend then
        match backendArgs clint r with
        | some (i, r) => some ({ s with backend := some i }, r)
        | none => none
      else none
  | _ => none

/-- `AppArgs`, `ast.rs:62-78` -/
structure AppArgs where
  device : Path
  core : Bool
  peripherals : Bool
  dispatchers : Map (List Attr)
  backend : Option Ident

/-- `AppArgs::parse`, `app.rs:24-170` -/
def appArgs (syn : Syn) (clint : Bool) (ts : List Tok) : Option AppArgs := do
  let s ← commaLoop (appArg syn clint) ts.length {} ts
  match s.device with
  | some d => pure { device := d, core := s.core, peripherals := s.peripherals, dispatchers := s.dispatchers, backend := s.backend }
  | none => none

end Verif.Grammar
