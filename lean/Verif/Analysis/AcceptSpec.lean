import Verif.Analysis.Spec

/-!
# Specification: the rules an application has to follow

Everything here is defined on what the user wrote (`Raw`, `Verif.Analysis.Spec`). The rules are those of the book and of the error messages of the macro, without any order in which they are checked.
-/

namespace Verif.Analysis

inductive ArgKind where
  | binds | priority | shared | locals | localTask | other
deriving DecidableEq

/-- the name of an argument -/
def TaskArg.kind : TaskArg → ArgKind
  | .binds _ => .binds
  | .priority _ => .priority
  | .shared _ => .shared
  | .locals _ => .locals
  | .localTask _ => .localTask
  | .other => .other

/-- The arguments of an attribute: each at most once, all known, priorities between 0 and 255, no resource listed twice, no empty `local` list. -/
structure ArgsValid (args : List TaskArg) : Prop where
  once : (args.map TaskArg.kind).Nodup
  known : .other ∉ args
  priority : ∀ n, .priority n ∈ args → n ≤ 255
  shared : ∀ l, .shared l ∈ args → (l.map Prod.fst).Nodup
  locals : ∀ l, .locals l ∈ args → l ≠ [] ∧ (l.map Prod.fst).Nodup

/-- A list of `#[shared]` (or `#[local]`) structs as in the source, with the name expected by `init`. There should be one; further structs without fields in front of it go unnoticed. -/
def StructsValid {α : Type} (structs : List (Ident × List (Ident × α))) (name : Ident) : Prop :=
  ∃ unnoticed fields, structs = unnoticed ++ [(name, fields)] ∧ (∀ s ∈ unnoticed, s.2 = []) ∧ (fields.map Prod.fst).Nodup

/-- the `#[shared]` structs in the order of the source -/
def Raw.sharedStructs (raw : Raw) : List (Ident × List (Ident × SharedRes)) := raw.items.filterMap fun | .sharedStruct i f => some (i, f) | _ => none

/-- the `#[local]` structs in the order of the source -/
def Raw.localStructs (raw : Raw) : List (Ident × List (Ident × Ty)) := raw.items.filterMap fun | .localStruct i f => some (i, f) | _ => none

/-- the names of `init`, `idle` and the tasks in the order of the source -/
def Raw.functions (raw : Raw) : List Ident := raw.items.filterMap fun | .init n _ _ _ _ | .idle n _ _ | .task n _ _ _ _ => some n | _ => none

/-- Rules that concern single items. -/
structure ItemsValid (raw : Raw) : Prop where
  /-- `init` exists, with a correct signature and only `local` resources declared there; the structs it returns are those of the application -/
  init : ∃ t args us ul, .init t args true us ul ∈ raw.items ∧ ArgsValid args ∧ (∀ a ∈ args, ∃ l, a = .locals l ∧ ∀ r, (r, .external) ∉ l) ∧
    StructsValid raw.sharedStructs us ∧ StructsValid raw.localStructs ul
  /-- there is one `init` and at most one `idle` -/
  inits : ∀ t args ok us ul t' args' ok' us' ul', .init t args ok us ul ∈ raw.items → .init t' args' ok' us' ul' ∈ raw.items → t = t'
  idles : ∀ t args ok t' args' ok', .idle t args ok ∈ raw.items → .idle t' args' ok' ∈ raw.items → t = t'
  /-- `idle` has a correct signature and takes only resources -/
  idle : ∀ t args ok, .idle t args ok ∈ raw.items → ok = true ∧ ArgsValid args ∧ ∀ a ∈ args, (∃ l, a = .shared l) ∨ ∃ l, a = .locals l
  /-- tasks have correct signatures; those with `binds` are not async and have no inputs, nor priority 0; the others are async -/
  task : ∀ t args as ins ok, .task t args as ins ok ∈ raw.items → ok = true ∧ ArgsValid args ∧ ((∃ b, .binds b ∈ args) → as = false ∧ ins = [] ∧ .priority 0 ∉ args) ∧ ((∀ b, .binds b ∉ args) → as = true)
  /-- no name is used twice, no interrupt is bound twice or listed twice as a dispatcher -/
  names : raw.functions.Nodup
  binds : ∀ t t' v q q' args args', TaskIs raw t (.hardware v) q args → TaskIs raw t' (.hardware v) q' args' → t = t'
  dispatchers : raw.dispatchers.Nodup

/-- Rules about resources and the use of interrupts. -/
structure UsesValid (raw : Raw) : Prop where
  /-- resources exist -/
  shared : ∀ t q r a, UsesShared raw t q r a → ∃ res, SharedField raw r res
  locals : ∀ t q r, UsesLocal raw t q r → ∃ ty, LocalField raw r ty
  /-- a shared resource is used only by reference or only exclusively -/
  access : ∀ t q r a t' q' a', UsesShared raw t q r a → UsesShared raw t' q' r a' → a = a'
  /-- a `lock_free` resource is used by tasks of one priority, none of which is a software task -/
  lockFree : ∀ r res, SharedField raw r res → res.lockFree = true → (∀ t q a t' q' a', UsesShared raw t q r a → UsesShared raw t' q' r a' → q = q') ∧ ∀ t q a args, TaskIs raw t .software q args → ¬ UsesShared raw t q r a
  /-- a field of the `#[local]` struct is used by at most one task, and its name is not declared again in an attribute -/
  localOnce : ∀ r ty t q t' q', LocalField raw r ty → UsesLocal raw t q r → UsesLocal raw t' q' r → t = t'
  localNew : ∀ r ty t, LocalField raw r ty → ¬ DeclaresLocal raw t r
  /-- software tasks of priority 0 exclude `idle` -/
  zero : ∀ t args t' q' args', TaskIs raw t .software 0 args → ¬ TaskIs raw t' .idle q' args'
  /-- an interrupt bound by a task is not a dispatcher -/
  separate : ∀ t v q args, TaskIs raw t (.hardware v) q args → v ∉ raw.dispatchers

/-- There is a dispatcher for every nonzero priority of the software tasks. -/
def EnoughDispatchers (raw : Raw) : Prop := ∀ ps : List Nat, ps.Nodup → (∀ q ∈ ps, 0 < q ∧ ∃ t args, TaskIs raw t .software q args) → ps.length ≤ raw.dispatchers.length

/-- The rules for Cortex-M with `bits` priority bits. -/
structure Valid (tg : Target) (bits : Nat) (raw : Raw) : Prop where
  items : ItemsValid raw
  uses : UsesValid raw
  enough : EnoughDispatchers raw
  /-- dispatchers are interrupts, not exceptions; no task is bound to an exception of fixed priority -/
  dispatchers : ∀ d ∈ raw.dispatchers, tg.isException d = false ∧ tg.isFixed d = false
  bound : ∀ t v q args, TaskIs raw t (.hardware v) q args → tg.isFixed v = false
  /-- the hardware supports the priorities -/
  priorities : ∀ t k q args, TaskIs raw t k q args → q ≤ 2 ^ bits

/-- The rules for ESP32-C3 and ESP32-C6: dispatchers are the `FROM_CPU` interrupts, priorities are at most 14. -/
structure ValidEsp (fromCpu : Ident → Bool) (raw : Raw) : Prop where
  items : ItemsValid raw
  uses : UsesValid raw
  enough : EnoughDispatchers raw
  dispatchers : ∀ d ∈ raw.dispatchers, fromCpu d = true
  priorities : ∀ t k q args, TaskIs raw t k q args → q ≤ 14

/-- The rules with SLIC: no dispatchers are given; `backend` as the board requires it. There is no limit for the priorities. -/
structure ValidSlic (backend : Bool) (raw : Raw) : Prop where
  items : ItemsValid raw
  uses : UsesValid raw
  dispatchers : raw.dispatchers = []
  backend : backend = true

end Verif.Analysis
