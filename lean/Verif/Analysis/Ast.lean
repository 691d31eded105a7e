/-!
# The abstract syntax of an RTIC application and the parser's checks

Model of `rtic-macros/src/syntax/ast.rs`, `syntax/parse.rs`, `syntax/parse/{app,util,hardware_task,software_task,idle,init,resource}.rs`.

The input is a list of items whose attribute arguments have been split at the commas; how they are read from tokens is in `Verif.Grammar`. Identifiers and types are compared by
equality only, except that `BTreeSet`/`BTreeMap` order them; they are represented by numbers. `cfg` attributes, docs, visibilities, function bodies and link sections are left out;
signatures, attributes and `extern` blocks (`parse/app.rs:390-497`) are in `Verif.Signature`, which produces the items used here.
-/

namespace Verif.Analysis

/-- `syn::Ident`; equality is equality of the text -/
abbrev Ident := Nat
/-- `syn::Type` -/
abbrev Ty := Nat
/-- `Map<T>` = `IndexMap<Ident, T>`, `syntax.rs:20`: insertion order, keys unique -/
abbrev Map (α : Type) := List (Ident × α)

/-- `IndexMap::get` -/
def get? {α : Type} (m : Map α) (k : Ident) : Option α := m.lookup k
/-- `IndexMap::contains_key` -/
def has {α : Type} (m : Map α) (k : Ident) : Bool := (get? m k).isSome
/-- `IndexMap::insert`: an existing entry keeps its place, a new one goes to the end -/
def insert {α : Type} (m : Map α) (k : Ident) (v : α) : Map α :=
  match m with
  | [] => [(k, v)]
  | (k', v') :: m => if k' = k then (k, v) :: m else (k', v') :: insert m k v

/-- `Access`, `ast.rs` -/
inductive Access where
  /-- `[x]` -/
  | exclusive
  /-- `[&x]` -/
  | shared
deriving DecidableEq, Repr

/-- `TaskLocal`, `ast.rs:336-343` -/
inductive TaskLocal where
  /-- a field of the `#[local]` struct -/
  | external
  /-- `local = [NAME: TYPE = EXPR]` -/
  | declared (ty : Ty)
deriving DecidableEq, Repr

/-- `HardwareTaskArgs`, `ast.rs:304-316` -/
structure HwTask where
  binds : Ident
  priority : Nat
  shared : Map Access
  locals : Map TaskLocal
deriving DecidableEq, Repr

/-- `SoftwareTaskArgs` and the inputs, `ast.rs:221-265` -/
structure SwTask where
  priority : Nat
  shared : Map Access
  locals : Map TaskLocal
  localTask : Bool
  inputs : List Ty
deriving DecidableEq, Repr

/-- `Idle`, `ast.rs:128-157` -/
structure Idle where
  name : Ident
  shared : Map Access
  locals : Map TaskLocal
deriving DecidableEq, Repr

/-- `Init`, `ast.rs:83-115` -/
structure Init where
  name : Ident
  locals : Map TaskLocal
  userShared : Ident
  userLocal : Ident
deriving DecidableEq, Repr

/-- `SharedResource`, `ast.rs:178-196` -/
structure SharedRes where
  ty : Ty
  lockFree : Bool
deriving DecidableEq, Repr

/-- `App`, `ast.rs:10-47` (the fields that matter after parsing); `dispatchers` are the keys of `AppArgs::dispatchers` -/
structure App where
  dispatchers : List Ident
  init : Init
  idle : Option Idle
  sharedRes : Map SharedRes
  localRes : Map Ty
  hw : Map HwTask
  sw : Map SwTask
deriving DecidableEq, Repr

/-- The error messages of the macro (one constructor per message). -/
inductive Err where
  | argTwice | unexpectedArg | prioRange | hwPrioZero | resourceTwice | emptyLocal | initExternal
  | dispatcherTwice | initTwice | idleTwice | bound (i : Ident) | identUsed (i : Ident) | taskTwice | structTwice | fieldTwice | badSignature | structName
  | undeclaredShared (r : Ident) | undeclaredLocal (r : Ident) | mixedAccess (r : Ident) | dispatcherIsTask (i : Ident)
  | lockFreeAsync (r : Ident) | lockFreeStruct (r : Ident) | lockFreePrio (r : Ident) | localShared (r : Ident) | prioZeroIdle (t : Ident)
  | exceptionDispatcher (i : Ident) | notEnough | badException (t : Ident)
  | abi | externItem | externAttr | namedFields
  /-- the arguments of an attribute cannot be read (`Verif.Grammar`, several messages) -/
  | badArgs
deriving DecidableEq, Repr

/-- how expansion fails: reported errors, or a panic -/
inductive Fail where
  | errors (l : List Err)
  /-- `expect("No ... defined")`, `parse/app.rs:509-513` -/
  | missing
  /-- `expect("UNREACHABLE")`, failed `assert!`, arithmetic underflow: internal errors of the macro -/
  | bug
deriving DecidableEq, Repr

abbrev Res := Except Fail

/-- equality of results is decidable (only used to evaluate examples) -/
instance {α : Type} [DecidableEq α] : DecidableEq (Res α)
  | .ok a, .ok b => if h : a = b then isTrue (by rw [h]) else isFalse (by intro e; cases e; exact h rfl)
  | .error a, .error b => if h : a = b then isTrue (by rw [h]) else isFalse (by intro e; cases e; exact h rfl)
  | .ok _, .error _ => isFalse (by intro e; cases e)
  | .error _, .ok _ => isFalse (by intro e; cases e)

def err {α : Type} (e : Err) : Res α := .error (.errors [e])

/-! ## raw input -/

/-- one comma separated argument of `#[task(..)]` -/
inductive TaskArg where
  | binds (i : Ident)
  | priority (lit : Nat)
  | shared (l : List (Ident × Access))
  | locals (l : List (Ident × TaskLocal))
  | localTask (b : Bool)
  | other
deriving DecidableEq, Repr

/-- items of the application module -/
inductive Item where
  | init (name : Ident) (args : List TaskArg) (sigOk : Bool) (userShared userLocal : Ident)
  | idle (name : Ident) (args : List TaskArg) (sigOk : Bool)
  /-- `#[task(args)] (async) fn name(cx, inputs)`; `sigOk`: visibility, generics, return type … are as required -/
  | task (name : Ident) (args : List TaskArg) (isAsync : Bool) (inputs : List Ty) (sigOk : Bool)
  | sharedStruct (ident : Ident) (fields : List (Ident × SharedRes))
  | localStruct (ident : Ident) (fields : List (Ident × Ty))
  | other
deriving DecidableEq, Repr

/-- the whole input of `#[app]` -/
structure Raw where
  dispatchers : List Ident
  items : List Item
deriving Repr

/-! ## parsing -/

/-- insert with the "appears more than once" check: the common shape of `parse/util.rs:118-125`, `261-268`, `parse/app.rs:104-112`, `331-339`, `369-376` -/
def insertNew {α : Type} (e : Err) (m : Map α) (kv : Ident × α) : Res (Map α) :=
  if has m kv.1 then err e else .ok (m ++ [kv])

/-- `parse_shared_resources`, `parse/util.rs:94-129` -/
def parseShared (l : List (Ident × Access)) : Res (Map Access) := l.foldlM (insertNew .resourceTwice) []

/-- `parse_local_resources`, `parse/util.rs:145-279` -/
def parseLocals (l : List (Ident × TaskLocal)) : Res (Map TaskLocal) := do
  let m ← l.foldlM (insertNew .resourceTwice) []
  if m.isEmpty then err .emptyLocal else pure m

/-- the accumulator of the argument loops in `parse.rs` -/
structure ArgSt where
  binds : Option Ident := none
  priority : Option Nat := none
  shared : Option (Map Access) := none
  locals : Option (Map TaskLocal) := none
  localTask : Option Bool := none

/-- one round of the loop of `task_args`, `parse.rs:202-301` -/
def taskArg (s : ArgSt) : TaskArg → Res ArgSt
  | .localTask b => if s.localTask.isSome then err .argTwice else .ok { s with localTask := some b }
  | .binds i => if s.binds.isSome then err .argTwice else .ok { s with binds := some i }
  | .priority n => if s.priority.isSome then err .argTwice else if n > 255 then err .prioRange else .ok { s with priority := some n }
  | .shared l => if s.shared.isSome then err .argTwice else do let m ← parseShared l; pure { s with shared := some m }
  | .locals l => if s.locals.isSome then err .argTwice else do let m ← parseLocals l; pure { s with locals := some m }
  | .other => err .unexpectedArg

/-- `task_args`, `parse.rs:189-345`: with `binds` a hardware task (default priority 1, zero refused, lines 315-331), otherwise a software task (default priority 0, lines 332-342) -/
def taskArgs (args : List TaskArg) (inputs : List Ty) : Res (Sum HwTask SwTask) := do
  let s ← args.foldlM taskArg {}
  match s.binds with
  | some b =>
    let p := s.priority.getD 1
    if p = 0 then err .hwPrioZero
    else pure (.inl { binds := b, priority := p, shared := s.shared.getD [], locals := s.locals.getD [] })
  | none => pure (.inr { priority := s.priority.getD 0, shared := s.shared.getD [], locals := s.locals.getD [], localTask := s.localTask.getD false, inputs := inputs })

/-- `init_args`, `parse.rs:72-127` -/
def initArgs (args : List TaskArg) : Res (Map TaskLocal) := do
  let s ← args.foldlM (fun s a => match a with
    | .locals l => taskArg s (.locals l)
    | _ => err .unexpectedArg) ({} : ArgSt)
  let l := s.locals.getD []
  if l.any (fun kv => kv.2 = .external) then err .initExternal else pure l

/-- `idle_args`, `parse.rs:129-187` -/
def idleArgs (args : List TaskArg) : Res (Map Access × Map TaskLocal) := do
  let s ← args.foldlM (fun s a => match a with
    | .locals l => taskArg s (.locals l)
    | .shared l => taskArg s (.shared l)
    | _ => err .unexpectedArg) ({} : ArgSt)
  pure (s.shared.getD [], s.locals.getD [])

/-- local variables of `App::parse`, `parse/app.rs:175-192` -/
structure PSt where
  init : Option Init := none
  idle : Option Idle := none
  sharedIdent : Option Ident := none
  sharedRes : Map SharedRes := []
  localIdent : Option Ident := none
  localRes : Map Ty := []
  hw : Map HwTask := []
  sw : Map SwTask := []
  seen : List Ident := []
  bindings : List Ident := []

/-- closure `check_ident`, `parse/app.rs:207-218` -/
def checkIdent (s : PSt) (i : Ident) : Res PSt := if i ∈ s.seen then err (.identUsed i) else .ok { s with seen := i :: s.seen }

/-- closure `check_binding`, `parse/app.rs:194-205` -/
def checkBinding (s : PSt) (i : Ident) : Res PSt := if i ∈ s.bindings then err (.bound i) else .ok { s with bindings := i :: s.bindings }

/-- one round of the loop over the items, `parse/app.rs:220-507` -/
def parseItem (s : PSt) : Item → Res PSt
  -- lines 229-243
  | .init name args sigOk us ul => do
    let l ← initArgs args
    if s.init.isSome then err .initTwice
    else
      let s ← checkIdent s name
      if sigOk then pure { s with init := some { name := name, locals := l, userShared := us, userLocal := ul } } else err .badSignature
  -- lines 249-263
  | .idle name args sigOk => do
    let (sh, l) ← idleArgs args
    if s.idle.isSome then err .idleTwice
    else
      let s ← checkIdent s name
      if sigOk then pure { s with idle := some { name := name, shared := sh, locals := l } } else err .badSignature
  -- lines 269-299; `HardwareTask::parse` hardware_task.rs:10-41 (not async, only the context), `SoftwareTask::parse` software_task.rs:10-43 (async)
  | .task name args isAsync inputs sigOk =>
    if has s.hw name || has s.sw name then err .taskTwice
    else do
      let a ← taskArgs args inputs
      match a with
      | .inl t =>
        let s ← checkBinding s t.binds
        let s ← checkIdent s name
        if sigOk && !isAsync && inputs.isEmpty then pure { s with hw := s.hw ++ [(name, t)] } else err .badSignature
      | .inr t =>
        let s ← checkIdent s name
        if sigOk && isAsync then pure { s with sw := s.sw ++ [(name, t)] } else err .badSignature
  -- lines 314-340
  | .sharedStruct i fields =>
    if !s.sharedRes.isEmpty then err .structTwice
    else do
      let m ← fields.foldlM (insertNew .fieldTwice) s.sharedRes
      pure { s with sharedIdent := some i, sharedRes := m }
  -- lines 352-377
  | .localStruct i fields =>
    if !s.localRes.isEmpty then err .structTwice
    else do
      let m ← fields.foldlM (insertNew .fieldTwice) s.localRes
      pure { s with localIdent := some i, localRes := m }
  | .other => .ok s

/-- `AppArgs::parse` (the dispatchers), `parse/app.rs:87-128` -/
def parseDispatchers (l : List Ident) : Res (List Ident) := do
  let m ← l.foldlM (fun (m : Map Unit) i => insertNew .dispatcherTwice m (i, ())) []
  pure (m.map Prod.fst)

/-- `parse::app`, `parse.rs:23-28`, and the end of `App::parse`, `parse/app.rs:509-547` -/
def parse (raw : Raw) : Res App := do
  let ds ← parseDispatchers raw.dispatchers
  let s ← raw.items.foldlM parseItem {}
  match s.sharedIdent, s.localIdent, s.init with
  | some si, some li, some init =>
    if si ≠ init.userShared then err .structName
    else if li ≠ init.userLocal then err .structName
    else pure { dispatchers := ds, init := init, idle := s.idle, sharedRes := s.sharedRes, localRes := s.localRes, hw := s.hw, sw := s.sw }
  | _, _, _ => .error .missing

end Verif.Analysis
