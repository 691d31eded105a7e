import Verif.Escape.Model
import Verif.Signature.Spec

/-! # Specification: references that may exist together -/

namespace Verif.Escape
open Verif.Analysis (Ident TaskArg)
open Verif.Signature

/-- Rust's rule: two references that exist at the same time are to different places, or both are shared references. -/
def Ok (a b : Ref) : Prop := a.place = b.place → a.excl = false ∧ b.excl = false

/-- function `f` of the module, or (`ext`) of one of its `extern` blocks -/
def FnOf (items : List SItem) (ext : Bool) (f : Fn) : Prop :=
  if ext then ∃ abi fs, .foreign abi fs ∈ items ∧ .fn f ∈ fs else .fn f ∈ items

/-- `f` is marked as a software task. -/
def IsSoftware (f : Fn) : Prop := Unmarked f.attrs Kw.init ∧ Unmarked f.attrs Kw.idle ∧ ∃ args, Marked f.attrs Kw.task args ∧ ∀ b, .binds b ∉ args

end Verif.Escape
