import Verif.Front.Model
import Verif.Signature.Spec

/-!
# Specification: the items of a module given with the tokens of its attributes

As `Verif.Signature.Reads`, the arguments of `init`, `idle` and `task` being read from their tokens by the grammar of `Verif.Grammar.Spec`.
-/

namespace Verif.Front
open Verif.Analysis (Ident Item SharedRes)
open Verif.Signature (Path Attr Fn Field Ty IsAttr InitForm IdleForm HardwareForm SoftwareForm FurtherInputs Kw.init Kw.idle Kw.task Kw.shared Kw.locals Kw.lockFree Kw.rust)
open Verif.Grammar (Syn Tok GArg Arg CommaList StrictList)

/-- the tokens in the parentheses of the attribute, none if there are no parentheses -/
def HasTokens (a : TAttr) (ts : List Tok) : Prop := a.content = .list ts ∨ (∀ us, a.content ≠ .list us) ∧ ts = []

/-- the first attribute `name` has these tokens -/
def Marked (attrs : List TAttr) (name : Ident) (ts : List Tok) : Prop :=
  ∃ pre a post, attrs = pre ++ a :: post ∧ IsAttr name a.bare ∧ (∀ b ∈ pre, ¬ IsAttr name b.bare) ∧ HasTokens a ts

/-- there is no attribute `name` -/
def Unmarked (attrs : List TAttr) (name : Ident) : Prop := ∀ a ∈ attrs, ¬ IsAttr name a.bare

/-- arguments of `init` and `idle`: nothing, or a list without a comma at the end -/
def FewArgs (syn : Syn) (ts : List Tok) (as : List GArg) : Prop := ts = [] ∧ as = [] ∨ StrictList (Arg syn) ts as

/-- Function `f`, of the module or of an `extern` block, is this item. -/
inductive ReadsFn (syn : Syn) (code : Ty → Analysis.Ty) (ext : Bool) (f : TFn) : Item → Prop
  | init {ts as ok us ul} : Marked f.attrs Kw.init ts → FewArgs syn ts as → (ok = true ↔ InitForm f.rest us ul) →
      ReadsFn syn code ext f (.init f.rest.name (as.map GArg.erase) ok us ul)
  | idle {ts as ok} : Unmarked f.attrs Kw.init → Marked f.attrs Kw.idle ts → FewArgs syn ts as → (ok = true ↔ IdleForm f.rest) →
      ReadsFn syn code ext f (.idle f.rest.name (as.map GArg.erase) ok)
  | hardware {ts as ok ins b} : Unmarked f.attrs Kw.init → Unmarked f.attrs Kw.idle → Marked f.attrs Kw.task ts → (ext = true → f.attrs.length = 1) → CommaList (Arg syn) ts as → .binds b ∈ as →
      (ok = true ↔ HardwareForm f.rest) → (f.rest.inputs.tail = [] ↔ ins = []) → ReadsFn syn code ext f (.task f.rest.name (as.map GArg.erase) f.rest.isAsync ins ok)
  | software {ts as ok ins} : Unmarked f.attrs Kw.init → Unmarked f.attrs Kw.idle → Marked f.attrs Kw.task ts → (ext = true → f.attrs.length = 1) → CommaList (Arg syn) ts as → (∀ b, .binds b ∉ as) →
      (ok = true ↔ SoftwareForm ext f.rest) → (∀ l, FurtherInputs f.rest l → ins = l.map fun i => code i.2) → ReadsFn syn code ext f (.task f.rest.name (as.map GArg.erase) f.rest.isAsync ins ok)
  | other : ext = false → Unmarked f.attrs Kw.init → Unmarked f.attrs Kw.idle → Unmarked f.attrs Kw.task → ReadsFn syn code ext f .other

/-- the field of a `#[shared]` struct as a resource: `lock_free` if it has that attribute -/
def ReadsField (code : Ty → Analysis.Ty) (f : TField) (r : Ident × SharedRes) : Prop :=
  r.1 = f.rest.name ∧ r.2.ty = code f.rest.ty ∧ (r.2.lockFree = true ↔ ∃ a ∈ f.attrs, IsAttr Kw.lockFree a.bare)

/-- all functions of an `extern` block -/
inductive ReadsForeign (syn : Syn) (code : Ty → Analysis.Ty) : List TFItem → List Item → Prop
  | nil : ReadsForeign syn code [] []
  | cons {f fs i is} : ReadsFn syn code true f i → ReadsForeign syn code fs is → ReadsForeign syn code (.fn f :: fs) (i :: is)

/-- fields, one by one -/
inductive ReadsFields (code : Ty → Analysis.Ty) : List TField → List (Ident × SharedRes) → Prop
  | nil : ReadsFields code [] []
  | cons {f fs r rs} : ReadsField code f r → ReadsFields code fs rs → ReadsFields code (f :: fs) (r :: rs)

/-- Item of the module: -/
inductive ReadsItem (syn : Syn) (code : Ty → Analysis.Ty) : TItem → List Item → Prop
  | fn {f i} : ReadsFn syn code false f i → ReadsItem syn code (.fn f) [i]
  | shared {attrs name fs rs} : ¬ Unmarked attrs Kw.shared → ReadsFields code fs rs → ReadsItem syn code (.struct attrs name (some fs)) [.sharedStruct name rs]
  | locals {attrs name fs} : Unmarked attrs Kw.shared → ¬ Unmarked attrs Kw.locals →
      ReadsItem syn code (.struct attrs name (some fs)) [.localStruct name (fs.map fun f => (f.rest.name, code f.rest.ty))]
  | struct {attrs name fs} : Unmarked attrs Kw.shared → Unmarked attrs Kw.locals → ReadsItem syn code (.struct attrs name fs) []
  /-- `extern { .. }` or `extern "Rust" { .. }` -/
  | foreign {abi fs is} : (abi.name = none ∨ abi.name = some Kw.rust) → ReadsForeign syn code fs is → ReadsItem syn code (.foreign abi fs) is
  | other : ReadsItem syn code .other []

/-- The module consists of these items. -/
inductive Reads (syn : Syn) (code : Ty → Analysis.Ty) : List TItem → List Item → Prop
  | nil : Reads syn code [] []
  | cons {s ss a b} : ReadsItem syn code s a → Reads syn code ss b → Reads syn code (s :: ss) (a ++ b)

end Verif.Front
