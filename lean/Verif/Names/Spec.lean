import Verif.Analysis.AcceptSpec

/-!
# Specification: names that do not get in each other's way

`txt` is the text of the identifiers of the application.
-/

namespace Verif.Names

open Verif.Analysis

abbrev Text := List Char

/-- `s` starts with `x` and an underscore -/
def Extends (x s : Text) : Prop := ∃ c, s = x ++ '_' :: c

/-- prefix of everything that is internal to the macro -/
def internal : Text := "__rtic_internal_".toList

/-- names the macro uses besides -/
def reservedNames : List Text := ["main".toList, "RTIC_ASYNC_MAX_LOGICAL_PRIO".toList, "shared_resources".toList, "you_must_enable_the_rt_feature_for_the_pac_in_your_cargo_toml".toList]

/-- `v` is bound by a task or listed as a dispatcher -/
def Vector (raw : Raw) (v : Ident) : Prop := v ∈ raw.dispatchers ∨ ∃ t q args, TaskIs raw t (.hardware v) q args

/-- `i` is the name of the struct of shared (local) resources returned by `init` -/
def StructName (raw : Raw) (i : Ident) : Prop := ∃ t args ok us ul, .init t args ok us ul ∈ raw.items ∧ (i = us ∨ i = ul)

/-- Names of an application for which the generated code has no two definitions of the same name. The first group is what any user expects; the second is about the way the macro builds names. -/
structure Plain (txt : Ident → Text) (raw : Raw) : Prop where
  /-- different identifiers have different texts -/
  inj : ∀ a b, txt a = txt b → a = b
  structs : ∀ t args ok us ul, .init t args ok us ul ∈ raw.items → us ≠ ul
  /-- nothing starts with `__rtic_internal_` or has one of the names above -/
  reserved : ∀ i, i ∈ raw.functions ∨ StructName raw i ∨ Vector raw i → ¬ internal <+: txt i ∧ txt i ∉ reservedNames
  /-- no function has the name of an interrupt in use (it becomes a handler in the same module) -/
  vectors : ∀ t, t ∈ raw.functions → ¬ Vector raw t
  /-- no function has the name of a resource struct (there is a module for each function) -/
  modules : ∀ t, t ∈ raw.functions → ¬ StructName raw t
  /-- no software task is called `shared_resource`, `shared_resource_..` or `local_..` -/
  software : ∀ t q args, TaskIs raw t .software q args → txt t ≠ "shared_resource".toList ∧ ¬ Extends "shared_resource".toList (txt t) ∧ ¬ Extends "local".toList (txt t)
  /-- no task with declared local resources is called `resource_..` -/
  resource : ∀ t r, DeclaresLocal raw t r → ¬ Extends "resource".toList (txt t)
  /-- no task with declared local resources is called like another one followed by an underscore and more -/
  declared : ∀ t r t' r', DeclaresLocal raw t r → DeclaresLocal raw t' r' → ¬ Extends (txt t) (txt t')

end Verif.Names
