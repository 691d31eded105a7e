import Verif.Analysis.Props
import Verif.Srp.Props
import Verif.SourceMask.Props

/-!
# From the application to the machine

The machine of `Verif.Srp` (BASEPRI targets) for the program generated by the `#[app]` macro (`Verif.Analysis.expand`): its handlers are the interrupt vectors with a hardware task or a dispatcher,
and the thread (idle, or the dispatcher of priority 0). Everything is read off the generated `Program`.
-/

namespace Verif.EndToEnd

open Verif.Analysis

/-- Handlers are numbered: 0 is the thread, `v + 1` the vector `v`. Task `t` is executed by handler `h`: `codegen/hardware_tasks.rs:19-50` (hardware tasks), `codegen/async_dispatchers.rs:62-91` (tasks
polled by a dispatcher), `codegen/main.rs:17-25,57` (idle). -/
def Runs (p : Program) : Nat → Ident → Prop
  | 0, t => .callIdle t ∈ p.main ∨ ∃ q ts, (none, q, ts) ∈ p.dispatchers ∧ t ∈ ts
  | v + 1, t => (∃ q, (v, q, t) ∈ p.hwHandlers) ∨ ∃ q ts, (some v, q, ts) ∈ p.dispatchers ∧ t ∈ ts

/-- priority of the handler of vector `v`, as configured by `setPriority` (`bindings/cortex.rs:204-265`) and passed to `run` (`codegen/hardware_tasks.rs:36-41`, `codegen/async_dispatchers.rs:71-77`);
0 (never started) if the vector has no handler -/
def vecPrio (p : Program) (v : Ident) : Nat :=
  match p.hwHandlers.find? (fun x => x.1 = v) with
  | some x => x.2.1
  | none => match p.dispatchers.find? (fun x => x.1 = some v) with
    | some x => x.2.1
    | none => 0

def handlerPrio (p : Program) : Nat → Nat
  | 0 => 0
  | v + 1 => vecPrio p v

/-- The configuration of the machine: a handler may lock what its tasks have a locking handle for (`codegen/shared_resources_struct.rs:59-74`), with the ceiling of the generated `Mutex` implementation
(`codegen/shared_resources.rs:88-113`). -/
def appCfg (bits : Nat) (p : Program) : Srp.Cfg where
  bits := bits
  prio := handlerPrio p
  uses := fun h r => ∃ c ∈ p.contexts, Runs p h c.task ∧ (r, .proxy) ∈ c.shared
  ceil := fun r => (p.mutexes.lookup r).getD 0

/-! ## targets without BASEPRI -/

/-- interrupts known to the generated masks, `source_masking::impl_mutex`, `bindings/cortex.rs:68-86`: dispatchers, then hardware tasks not bound to exceptions; `num` is the number of the interrupt in the
device crate (`device::Interrupt::name as u32`) -/
def appIrqs (tg : Target) (num : Ident → Nat) (p : Program) : SourceMask.Irqs :=
  (p.dispatchers.filterMap fun d => d.1.map fun v => (d.2.1, num v)) ++ (p.hwHandlers.filter fun x => !tg.isException x.1).map fun x => (x.2.1, num x.1)

/-- the interrupt number a handler is bound to; none for the thread and for exceptions -/
def bindOf (tg : Target) (num : Ident → Nat) : Nat → Option Nat
  | 0 => none
  | v + 1 => if tg.isException v then none else some (num v)

/-- The configuration of the machine of `Verif.SourceMask` for a generated program. -/
def maskCfg (tg : Target) (num : Ident → Nat) (p : Program) : SourceMask.Cfg where
  prio := handlerPrio p
  bind := bindOf tg num
  uses := fun h r => ∃ c ∈ p.contexts, Runs p h c.task ∧ (r, .proxy) ∈ c.shared
  ceil := fun r => (p.mutexes.lookup r).getD 0
  irqs := appIrqs tg num p
  masks := (SourceMask.genMasks (appIrqs tg num p)).getD []

end Verif.EndToEnd
