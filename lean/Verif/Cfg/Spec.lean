import Verif.Analysis.AcceptSpec

/-!
# Specification: parts of the application switched off by `#[cfg(..)]`

A tuple of values for all `#[cfg(..)]` attributes of the application decides which tasks, fields of the resource structs and declared local resources exist. What the user expects is the application
without the others.
-/

namespace Verif.Cfg

open Verif.Analysis

/-- which parts exist. (`init` and `idle` cannot be switched off: without them the generated `main` does not compile.) -/
structure Switch where
  task : Ident → Bool
  shared : Ident → Bool
  locals : Ident → Bool
  /-- a local resource declared in the attribute of a task: task, name -/
  declared : Ident → Ident → Bool

/-- an entry of `local = [..]` in the attribute of `t` -/
def Switch.hasLocal (on : Switch) (t : Ident) (x : Ident × TaskLocal) : Bool :=
  match x.2 with
  | .external => on.locals x.1
  | .declared _ => on.declared t x.1

/-- The arguments of the attribute of `t` without the resources that do not exist (an empty `local` list is left out). -/
def Switch.arg (on : Switch) (t : Ident) : TaskArg → Option TaskArg
  | .shared l => some (.shared (l.filter fun x => on.shared x.1))
  | .locals l => if l.filter (on.hasLocal t) = [] then none else some (.locals (l.filter (on.hasLocal t)))
  | a => some a

def Switch.item (on : Switch) : Item → Option Item
  | .task t args as ins ok => if on.task t then some (.task t (args.filterMap (on.arg t)) as ins ok) else none
  | .init t args ok us ul => some (.init t (args.filterMap (on.arg t)) ok us ul)
  | .idle t args ok => some (.idle t (args.filterMap (on.arg t)) ok)
  | .sharedStruct i f => some (.sharedStruct i (f.filter fun x => on.shared x.1))
  | .localStruct i f => some (.localStruct i (f.filter fun x => on.locals x.1))
  | .other => some .other

/-- the application with the parts that do not exist deleted from the source -/
def Switch.source (on : Switch) (raw : Raw) : Raw := { raw with items := raw.items.filterMap on.item }

/-- two contexts offer a task the same -/
structure SameContext (c c' : Context) : Prop where
  task : c.task = c'.task
  priority : c.priority = c'.priority
  isAsync : c.isAsync = c'.isAsync
  shared : ∀ x, x ∈ c.shared ↔ x ∈ c'.shared
  locals : ∀ x, x ∈ c.locals ↔ x ∈ c'.locals

/-- no field of the `#[local]` struct has the name of a field of the `#[shared]` struct -/
def DistinctFields (raw : Raw) : Prop := ∀ r res ty, SharedField raw r res → ¬ LocalField raw r ty

end Verif.Cfg
