import Verif.Signature.Syntax
import Verif.Analysis.AcceptSpec

/-!
# Specification: the forms of the functions of an application

The book and the error messages of the macro give the signatures; here they are predicates on the source. `Reads` says which items (in the sense of `Verif.Analysis.Raw`, on which the rules of
C40-C45, C84 are stated) a module consists of.
-/

namespace Verif.Signature
open Verif.Analysis (Ident TaskArg Item SharedRes)

/-- no `pub`, `const`, `unsafe`, `extern ".."`, generics, `where`, `...` -/
structure Plain (f : Fn) : Prop where
  notPub : f.isPub = false
  notConst : f.isConst = false
  notUnsafe : f.isUnsafe = false
  abi : f.abi = none
  generics : f.generics = 0
  whereClause : f.whereClause = false
  variadic : f.variadic = false

/-- `_: name::Context args`. What is not looked at: a leading `::`, and arguments of the first segment. -/
def ContextArg (name : Ident) (args : PArgs) (a : FnArg) : Prop :=
  ∃ pat lc a0, a = .typed pat (.path false { leadingColon := lc, segs := [{ ident := name, args := a0 }, { ident := Kw.context, args := args }] })

/-- no return type, or `()` -/
def ReturnsUnit (r : Ret) : Prop := r = .default ∨ r = .type (.tuple [])

/-- `-> !` -/
def Diverges (r : Ret) : Prop := r = .type .never

/-- `name` as a type -/
def NamesType (name : Ident) (t : Ty) : Prop := ∃ q, t = .path q { leadingColon := false, segs := [{ ident := name, args := .none }] }

/-- `fn init(_: init::Context) -> (us, ul)` -/
structure InitForm (f : Fn) (us ul : Ident) : Prop where
  plain : Plain f
  sync : f.isAsync = false
  inputs : ∃ c args, f.inputs = [c] ∧ ContextArg f.name args c
  output : ∃ a b, f.output = .type (.tuple [a, b]) ∧ NamesType us a ∧ NamesType ul b

/-- `fn idle(_: idle::Context) -> !` -/
structure IdleForm (f : Fn) : Prop where
  plain : Plain f
  sync : f.isAsync = false
  inputs : ∃ c args, f.inputs = [c] ∧ ContextArg f.name args c
  output : Diverges f.output

/-- `fn name(_: name::Context)` -/
structure HardwareForm (f : Fn) : Prop where
  plain : Plain f
  sync : f.isAsync = false
  inputs : ∃ c args, f.inputs = [c] ∧ ContextArg f.name args c
  output : ReturnsUnit f.output

/-- no lifetime argument, or one that is not `'static` -/
def NotStatic (args : PArgs) : Prop := args = .none ∨ args = .angle [] ∨ ∃ n, n ≠ Kw.static ∧ args = .angle [.lifetime n]

/-- the arguments after the first one -/
def FurtherInputs (f : Fn) (ins : List (Nat × Ty)) : Prop := f.inputs.tail = ins.map fun i => FnArg.typed i.1 i.2

/-- `async fn name(_: name::Context, inputs..)` or `async fn name(_: name::Context, inputs..) -> !`; for a function of an `extern` block that returns the context is not `'static` -/
structure SoftwareForm (ext : Bool) (f : Fn) : Prop where
  plain : Plain f
  async : f.isAsync = true
  inputs : ∃ c args rest, f.inputs = c :: rest ∧ ContextArg f.name args c ∧ (ext = true → ¬ Diverges f.output → NotStatic args)
  further : ∃ ins, FurtherInputs f ins
  output : ReturnsUnit f.output ∨ Diverges f.output

/-! ## attributes -/

/-- `#[name]` or `#[name(..)]` (or `#[name = ..]`), not `#![..]` -/
def IsAttr (name : Ident) (a : Attr) : Prop := a.inner = false ∧ ∃ lc, a.path = { leadingColon := lc, segs := [{ ident := name, args := .none }] }

/-- the first attribute `name` has these arguments -/
def Marked (attrs : List Attr) (name : Ident) (args : List TaskArg) : Prop :=
  ∃ pre a post, attrs = pre ++ a :: post ∧ IsAttr name a ∧ (∀ b ∈ pre, ¬ IsAttr name b) ∧ args = a.args.getD []

/-- there is no attribute `name` -/
def Unmarked (attrs : List Attr) (name : Ident) : Prop := ∀ a ∈ attrs, ¬ IsAttr name a

/-- the field of a `#[shared]` struct as a resource: `lock_free` if it has that attribute -/
def ReadsField (code : Ty → Analysis.Ty) (f : Field) (r : Ident × SharedRes) : Prop :=
  r.1 = f.name ∧ r.2.ty = code f.ty ∧ (r.2.lockFree = true ↔ ∃ a ∈ f.attrs, IsAttr Kw.lockFree a)

/-! ## items -/

/-- Function `f`, of the module or of an `extern` block, is this item. -/
inductive ReadsFn (code : Ty → Analysis.Ty) (ext : Bool) (f : Fn) : Item → Prop
  | init {args ok us ul} : Marked f.attrs Kw.init args → (ok = true ↔ InitForm f us ul) → ReadsFn code ext f (.init f.name args ok us ul)
  | idle {args ok} : Unmarked f.attrs Kw.init → Marked f.attrs Kw.idle args → (ok = true ↔ IdleForm f) → ReadsFn code ext f (.idle f.name args ok)
  | hardware {args ok ins b} : Unmarked f.attrs Kw.init → Unmarked f.attrs Kw.idle → Marked f.attrs Kw.task args → (ext = true → f.attrs.length = 1) → .binds b ∈ args →
      (ok = true ↔ HardwareForm f) → (f.inputs.tail = [] ↔ ins = []) → ReadsFn code ext f (.task f.name args f.isAsync ins ok)
  | software {args ok ins} : Unmarked f.attrs Kw.init → Unmarked f.attrs Kw.idle → Marked f.attrs Kw.task args → (ext = true → f.attrs.length = 1) → (∀ b, .binds b ∉ args) →
      (ok = true ↔ SoftwareForm ext f) → (∀ l, FurtherInputs f l → ins = l.map fun i => code i.2) → ReadsFn code ext f (.task f.name args f.isAsync ins ok)
  | other : ext = false → Unmarked f.attrs Kw.init → Unmarked f.attrs Kw.idle → Unmarked f.attrs Kw.task → ReadsFn code ext f .other

/-- all functions of an `extern` block -/
inductive ReadsForeign (code : Ty → Analysis.Ty) : List FItem → List Item → Prop
  | nil : ReadsForeign code [] []
  | cons {f fs i is} : ReadsFn code true f i → ReadsForeign code fs is → ReadsForeign code (.fn f :: fs) (i :: is)

/-- fields, one by one -/
inductive ReadsFields (code : Ty → Analysis.Ty) : List Field → List (Ident × SharedRes) → Prop
  | nil : ReadsFields code [] []
  | cons {f fs r rs} : ReadsField code f r → ReadsFields code fs rs → ReadsFields code (f :: fs) (r :: rs)

/-- Item of the module: -/
inductive ReadsItem (code : Ty → Analysis.Ty) : SItem → List Item → Prop
  | fn {f i} : ReadsFn code false f i → ReadsItem code (.fn f) [i]
  | shared {attrs name fs rs} : ¬ Unmarked attrs Kw.shared → ReadsFields code fs rs → ReadsItem code (.struct attrs name (some fs)) [.sharedStruct name rs]
  | locals {attrs name fs} : Unmarked attrs Kw.shared → ¬ Unmarked attrs Kw.locals →
      ReadsItem code (.struct attrs name (some fs)) [.localStruct name (fs.map fun f => (f.name, code f.ty))]
  | struct {attrs name fs} : Unmarked attrs Kw.shared → Unmarked attrs Kw.locals → ReadsItem code (.struct attrs name fs) []
  /-- `extern { .. }` or `extern "Rust" { .. }` -/
  | foreign {abi fs is} : (abi.name = none ∨ abi.name = some Kw.rust) → ReadsForeign code fs is → ReadsItem code (.foreign abi fs) is
  | other : ReadsItem code .other []

/-- The module consists of these items. -/
inductive Reads (code : Ty → Analysis.Ty) : List SItem → List Item → Prop
  | nil : Reads code [] []
  | cons {s ss a b} : ReadsItem code s a → Reads code ss b → Reads code (s :: ss) (a ++ b)

end Verif.Signature
