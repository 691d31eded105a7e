import Verif.Analysis.Model

/-!
# Specification vocabulary: what the user wrote

Everything here is defined on the raw input of the macro (`Raw`), not on the parsed tree or on the result of the analysis.
-/

namespace Verif.Analysis

inductive Kind where
  | idle
  | hardware (vector : Ident)
  | software
deriving DecidableEq

/-- Priority of a task according to its attribute: what is written, otherwise 1 with `binds`, 0 without. -/
def HasPriority (args : List TaskArg) (p : Nat) : Prop :=
  .priority p ∈ args ∨ (∀ n, .priority n ∉ args) ∧ ((∃ b, .binds b ∈ args) ∧ p = 1 ∨ (∀ b, .binds b ∉ args) ∧ p = 0)

/-- Task `t` (idle included, `init` not) of the application, its kind, its priority and the arguments of its attribute. -/
inductive TaskIs (raw : Raw) : Ident → Kind → Nat → List TaskArg → Prop
  | idle {t args ok} : .idle t args ok ∈ raw.items → TaskIs raw t .idle 0 args
  | hardware {t args as ins ok b p} : .task t args as ins ok ∈ raw.items → .binds b ∈ args → HasPriority args p → TaskIs raw t (.hardware b) p args
  | software {t args as ins ok p} : .task t args as ins ok ∈ raw.items → (∀ b, .binds b ∉ args) → HasPriority args p → TaskIs raw t .software p args

/-- Task `t`, of priority `p`, has `r` (access `a`) in its `shared = [..]` list. -/
def UsesShared (raw : Raw) (t : Ident) (p : Nat) (r : Ident) (a : Access) : Prop :=
  ∃ k args l, TaskIs raw t k p args ∧ .shared l ∈ args ∧ (r, a) ∈ l

/-- Task `t`, of priority `p`, has `r` in its `local = [..]` list (without declaring it there). -/
def UsesLocal (raw : Raw) (t : Ident) (p : Nat) (r : Ident) : Prop :=
  ∃ k args l, TaskIs raw t k p args ∧ .locals l ∈ args ∧ (r, .external) ∈ l

/-- Some task or `init` declares a task-local resource named `r` in its attribute. -/
def DeclaresLocal (raw : Raw) (t : Ident) (r : Ident) : Prop :=
  ∃ args l ty, ((∃ k p, TaskIs raw t k p args) ∨ ∃ ok s u, .init t args ok s u ∈ raw.items) ∧ .locals l ∈ args ∧ (r, .declared ty) ∈ l

/-- `r` is a field of the `#[shared]` struct. -/
def SharedField (raw : Raw) (r : Ident) (res : SharedRes) : Prop := ∃ i f, .sharedStruct i f ∈ raw.items ∧ (r, res) ∈ f

/-- `r` is a field of the `#[local]` struct. -/
def LocalField (raw : Raw) (r : Ident) (ty : Ty) : Prop := ∃ i f, .localStruct i f ∈ raw.items ∧ (r, ty) ∈ f

/-- Task `t` is a software task marked (or not) `local_task`, with these inputs. -/
def IsLocalTask (raw : Raw) (t : Ident) (b : Bool) (ins : List Ty) : Prop :=
  ∃ args as ok, .task t args as ins ok ∈ raw.items ∧ (∀ v, .binds v ∉ args) ∧ (.localTask b ∈ args ∨ b = false ∧ ∀ b', .localTask b' ∉ args)

end Verif.Analysis
