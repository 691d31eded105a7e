import Verif.Cfg.Spec
import Verif.EndToEnd.Model

/-!
# Conditional compilation of the generated code

`#[app]` runs before the `#[cfg(..)]` attributes inside the module are evaluated: parsing, analysis and code generation (`Verif.Analysis.expand`) see all parts, and the generated items carry the attributes of
the parts they belong to. `enabled` is what the compiler makes of the generated code.
-/

namespace Verif.Cfg

open Verif.Analysis

/-- `t` is the name of a hardware or software task (not of `idle`) -/
def isTask (p : Program) (t : Ident) : Bool := p.hwHandlers.any (fun x => decide (x.2.2 = t)) || p.dispatchers.any fun x => decide (t ∈ x.2.2)

/-- the context and resource structs of a task: `#(#cfgs)*` of the task in `codegen/module.rs:277-299`, those of the resources in `codegen/shared_resources_struct.rs:25-86` and `codegen/local_resources_struct.rs:30-69` -/
def onContext (on : Switch) (c : Context) : Context :=
  { c with shared := c.shared.filter fun x => on.shared x.1, locals := c.locals.filter fun x => if x.2 then on.locals x.1 else on.declared c.task x.1 }

/-- statements of `main` under `#(#cfgs)*`: only the writes of the resources, `codegen/post_init.rs:10-41`. In particular the interrupts of all hardware tasks are configured and unmasked, `bindings/cortex.rs:204-265`. -/
def onStmt (on : Switch) : Stmt → Bool
  | .writeShared r => on.shared r
  | .writeLocal r => on.locals r
  | _ => true

/-- The generated code that exists:
* contexts and `Mutex` implementations: as above; `codegen/shared_resources.rs:42-106`;
* handlers of hardware tasks: `codegen/hardware_tasks.rs:30-50`;
* dispatchers exist always, the polls in them if the task exists: `codegen/async_dispatchers.rs:23-92`;
* `spawn` and wakers: `codegen/module.rs:165-268`;
* the assertions of `Send` and `Sync` and the priority limit carry no attributes: `codegen/assertions.rs:10-22`, `bindings/cortex.rs:349-363`. -/
def enabled (on : Switch) (p : Program) : Program :=
  { contexts := (p.contexts.filter fun c => !isTask p c.task || on.task c.task).map (onContext on)
    mutexes := p.mutexes.filter fun x => on.shared x.1
    hwHandlers := p.hwHandlers.filter fun x => on.task x.2.2
    dispatchers := p.dispatchers.map fun x => (x.1, x.2.1, x.2.2.filter on.task)
    pends := p.pends.filter fun x => on.task x.1
    localSpawn := p.localSpawn.filter fun x => on.task x.1 && on.task x.2
    freeSpawn := p.freeSpawn.filter on.task
    sendAsserts := p.sendAsserts
    syncAsserts := p.syncAsserts
    asyncMax := p.asyncMax
    main := p.main.filter (onStmt on) }

/-- The machine (`Verif.Srp`) that executes the enabled code: the priorities are those written by `main`, which configures all vectors; locks are taken through the handles that exist, with the ceilings that exist. -/
def cfgOf (on : Switch) (bits : Nat) (p : Program) : Srp.Cfg :=
  { EndToEnd.appCfg bits (enabled on p) with prio := EndToEnd.handlerPrio p }

end Verif.Cfg
