import Verif.Analysis.Ast

/-!
# The items of an application module as the macro receives them

The part of the `syn` syntax tree that `rtic-macros/src/syntax/parse/{app,util,init,idle,hardware_task,software_task,resource}.rs` look at: attributes, visibility, signature, types as far as
they are inspected. Bodies, spans and docs are left out. The arguments of an attribute are already split (`Verif.Analysis.TaskArg`); how they are read from tokens is the subject of
`Verif.Grammar`.
-/

namespace Verif.Signature
open Verif.Analysis (Ident TaskArg)

/-! The identifiers the macro knows; identifiers are only compared, so that each gets a number. -/
namespace Kw
abbrev init : Ident := 1
abbrev idle : Ident := 2
abbrev task : Ident := 3
abbrev shared : Ident := 4
abbrev locals : Ident := 5
abbrev cfg : Ident := 6
abbrev doc : Ident := 7
abbrev lockFree : Ident := 8
/-- `Context` -/
abbrev context : Ident := 9
/-- `static` of the lifetime `'static` -/
abbrev static : Ident := 10
/-- `_` of the lifetime `'_` -/
abbrev underscore : Ident := 11
/-- `Rust` of `extern "Rust"` -/
abbrev rust : Ident := 12
end Kw

/-- `syn::GenericArgument` -/
inductive GArg where
  | lifetime (name : Ident)
  | other
deriving DecidableEq, Repr

/-- `syn::PathArguments` -/
inductive PArgs where
  | none
  | angle (args : List GArg)
  | paren
deriving DecidableEq, Repr

/-- `syn::PathSegment` -/
structure Seg where
  ident : Ident
  args : PArgs := .none
deriving DecidableEq, Repr

/-- `syn::Path` -/
structure Path where
  leadingColon : Bool := false
  segs : List Seg
deriving DecidableEq, Repr

/-- `syn::Type`; what is inside is kept only where the macro looks at it -/
inductive Ty where
  | never
  | tuple (elems : List Ty)
  | path (qself : Bool) (path : Path)
  | other (what : Nat)

/-- `syn::FnArg`; a pattern is represented by a number -/
inductive FnArg where
  | receiver
  | typed (pat : Nat) (ty : Ty)

/-- `syn::ReturnType` -/
inductive Ret where
  | default
  | type (ty : Ty)

/-- `syn::Abi` -/
structure Abi where
  name : Option Ident

/-- `syn::Attribute`; `args = none`: not of the form `#[path(..)]` -/
structure Attr where
  inner : Bool := false
  path : Path
  args : Option (List TaskArg) := none

/-- `syn::ItemFn` and `syn::ForeignItemFn` -/
structure Fn where
  attrs : List Attr
  name : Ident
  /-- `vis != Visibility::Inherited` -/
  isPub : Bool := false
  isConst : Bool := false
  isAsync : Bool := false
  isUnsafe : Bool := false
  abi : Option Abi := none
  /-- number of generic parameters -/
  generics : Nat := 0
  whereClause : Bool := false
  variadic : Bool := false
  inputs : List FnArg
  output : Ret := .default

/-- a field of a struct with named fields -/
structure Field where
  attrs : List Attr := []
  name : Ident
  ty : Ty

/-- `syn::ForeignItem` -/
inductive FItem where
  | fn (f : Fn)
  | other

/-- `syn::Item` -/
inductive SItem where
  | fn (f : Fn)
  /-- `fields = none`: the fields have no names -/
  | struct (attrs : List Attr) (name : Ident) (fields : Option (List Field))
  | foreign (abi : Abi) (items : List FItem)
  | other

end Verif.Signature
