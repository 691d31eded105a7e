import Verif.Signature.Model

/-!
# Lifetimes of the references in the contexts

Which references the context of a function contains, and with which lifetimes: `codegen/local_resources_struct.rs`, `codegen/shared_resources_struct.rs`, `codegen/module.rs`, `codegen/software_tasks.rs`,
`codegen/hardware_tasks.rs`, `codegen/init.rs`, `codegen/idle.rs`, and `assert_task_diverges`, `rtic/src/export/executor.rs:294-305`.

The rules of Rust that are used: a reference with a lifetime that the function is generic in does not outlive the call (for an `async fn`: the future); one with lifetime `'static` may be kept for ever.
-/

namespace Verif.Escape
open Verif.Analysis (Ident Access TaskLocal Map SharedRes App get?)
open Verif.Signature (Def)

/-- the statics that hold the resources; their names are distinct (C86) -/
inductive Place where
  /-- `static_local_resource_ident`: field of the `#[local]` struct -/
  | localRes (r : Ident)
  /-- `declared_static_local_resource_ident`: `local = [r: T = e]` of a function -/
  | declared (fn r : Ident)
  /-- `static_shared_resource_ident`: field of the `#[shared]` struct -/
  | shared (r : Ident)
deriving DecidableEq, Repr

/-- a reference in a context: `&mut` or `&`, with lifetime `'static` or not -/
structure Ref where
  place : Place
  excl : Bool
  static : Bool
deriving DecidableEq, Repr

inductive Kind where
  | init | idle | hardware | software
deriving DecidableEq, Repr

/-- `Context::runs_once`, `syntax.rs:62-65` -/
def Kind.runsOnce : Kind → Bool
  | .init | .idle => true
  | _ => false

/-- The fields of `LocalResources<'a>`, `local_resources_struct.rs:30-69`; `ctx`: `'a` is `'static`. -/
def localRefs (k : Kind) (ctx : Bool) (fn : Ident) (m : Map TaskLocal) : List Ref :=
  m.map fun nt => { place := match nt.2 with | .external => .localRes nt.1 | .declared _ => .declared fn nt.1, excl := true, static := k.runsOnce || ctx }

/-- One field of `SharedResources<'a>`, `shared_resources_struct.rs:25-86`, if it is a reference. -/
def sharedRef (app : App) (k : Kind) (ctx : Bool) (na : Ident × Access) : Option Ref :=
  match get? app.sharedRes na.1 with
  | some res =>
    if res.lockFree then some { place := .shared na.1, excl := na.2 == .exclusive, static := k.runsOnce || ctx }
    else if na.2 == .shared then some { place := .shared na.1, excl := false, static := ctx }
    else none
  -- `expect("UNREACHABLE")`
  | none => none

/-- One field of `SharedResources<'a>`, if it is a proxy to be locked, `shared_resources_struct.rs:58-74`. -/
def proxy (app : App) (na : Ident × Access) : Option Ident :=
  match get? app.sharedRes na.1 with
  | some res => if res.lockFree then none else if na.2 == .shared then none else some na.1
  | none => none

/-- what the function really returns (for a function declared in an `extern` block the macro does not see it) -/
inductive Output where
  | unit
  | never
  | infallible
  /-- a type of the user; `into`: the user has implemented `From` of it for `Infallible` -/
  | user (into : Bool)
deriving DecidableEq, Repr

/-- there are values of the type -/
def Output.inhabited : Output → Bool
  | .unit => true
  | .never => false
  | .infallible => false
  | .user _ => true

/-- `I: Into<Infallible>`, the bound of `assert_task_diverges`, `executor.rs:299-305` -/
def Output.intoInfallible : Output → Bool
  | .unit => false
  | .never => true
  | .infallible => true
  | .user b => b

/-- What the compiler checks of a software task: the function generated from the body in the module has the return type given to it (`software_tasks.rs:38-65`), and for a function of an `extern` block declared with `-> !` the
spawn code calls `assert_task_diverges` (`module.rs:139-148`). -/
def compilesTask (d : Def) (out : Output) : Bool :=
  if d.isExtern then !d.isBottom || out.intoInfallible
  else out == if d.isBottom then .never else .unit

/-- A function of the application: the lifetime of its context, the references and proxies in it, and whether it returns. -/
structure Frame where
  name : Ident
  kind : Kind
  prio : Nat
  /-- the lifetime argument of the context is `'static` -/
  ctx : Bool
  returns : Bool
  refs : List Ref
  proxies : List Ident
deriving Repr

/-- The macro keeps `is_bottom` in the task (`ast.rs:253-263`); here it is looked up by the name. -/
def isBottom (defs : List Def) (n : Ident) : Bool := defs.any fun d => d.name == n && d.isBottom

def frame (app : App) (k : Kind) (prio : Nat) (ctx ret : Bool) (n : Ident) (sh : Map Access) (lo : Map TaskLocal) : Frame :=
  { name := n, kind := k, prio := prio, ctx := ctx, returns := ret, refs := localRefs k ctx n lo ++ sh.filterMap (sharedRef app k ctx), proxies := sh.filterMap (proxy app) }

/-- All functions. `init` and `idle` take `name::Context` with an elided lifetime (`init.rs:77`, `idle.rs:41`), hardware tasks too and are called with the parameter `'non_static` of the caller (`hardware_tasks.rs:30-48`); software tasks have
`Context<'static>` if declared with `-> !` and `Context<'a>` otherwise (`software_tasks.rs:40-66`; for `extern` tasks `module.rs:139-163`). `idle` is the last expression of `main`, of type `!` (`main.rs`). -/
def frames (app : App) (defs : List Def) (out : Ident → Output) : List Frame :=
  [frame app .init 0 false true app.init.name [] app.init.locals] ++
  (match app.idle with | some i => [frame app .idle 0 false false i.name i.shared i.locals] | none => []) ++
  (app.hw.map fun nt => frame app .hardware nt.2.priority false true nt.1 nt.2.shared nt.2.locals) ++
  (app.sw.map fun nt => frame app .software nt.2.priority (isBottom defs nt.1) (out nt.1).inhabited nt.1 nt.2.shared nt.2.locals)

/-! ## execution -/

/-- The contexts that exist, the functions that have been called, the references held (with the function they were given to), the locks taken. -/
structure St where
  active : List Ident := []
  started : List Ident := []
  held : List (Ident × Ref) := []
  locked : List (Ident × Ident) := []

/-- Between two steps anything may happen that does not create references to resources. -/
inductive Step (fs : List Frame) : St → St → Prop
  /-- A function is called with a new context. A task is called only if its last call has ended (hardware: the handler does not preempt itself; software: `running`, C36), `init` and `idle` once (C53); a hardware task only if those that
  have been called and have not returned have lower priority. -/
  | start (s f) (hf : f ∈ fs) (ha : f.name ∉ s.active) (ho : f.kind.runsOnce = true → f.name ∉ s.started)
      (hp : f.kind = .hardware → ∀ g ∈ fs, g.kind = .hardware → g.name ∈ s.active → g.prio < f.prio) :
      Step fs s { s with active := f.name :: s.active, started := f.name :: s.started, held := f.refs.map (fun r => (f.name, r)) ++ s.held }
  /-- It ends, if it returns at all: the references that are not `'static` cease to exist, the others may have been stored elsewhere. -/
  | finish (s f) (hf : f ∈ fs) (ha : f.name ∈ s.active) (hr : f.returns = true) (hl : ∀ r, (f.name, r) ∉ s.locked) :
      Step fs s { s with active := s.active.filter (· ≠ f.name), held := s.held.filter fun x => x.1 ≠ f.name ∨ x.2.static = true }
  /-- References may be dropped at any time. -/
  | drop (s l) (hl : l.Sublist s.held) : Step fs s { s with held := l }
  /-- `lock`: exclusion of other locks of the resource is C46, C49, C51 (and the proxy is borrowed meanwhile) -/
  | lock (s f r) (hf : f ∈ fs) (ha : f.name ∈ s.active) (hr : r ∈ f.proxies) (hx : ∀ t, (t, r) ∉ s.locked) : Step fs s { s with locked := (f.name, r) :: s.locked }
  | unlock (s t r) (h : (t, r) ∈ s.locked) : Step fs s { s with locked := s.locked.erase (t, r) }

inductive Reach (fs : List Frame) : St → Prop
  | nil : Reach fs {}
  | step {s s'} : Reach fs s → Step fs s s' → Reach fs s'

/-- all references to resources that exist in a state: those from contexts, and the ones given to the closures of `lock` -/
def St.all (s : St) : List Ref := s.held.map Prod.snd ++ s.locked.map fun tr => { place := .shared tr.2, excl := true, static := false }

end Verif.Escape
