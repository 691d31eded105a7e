import Verif.Names.Spec

/-!
# The definitions in the generated module

`rtic-macros/src/codegen/*.rs`, `codegen/util.rs` (Cortex-M). Only definitions at the top level of the module, in the two namespaces of Rust in which they lie; macros, `impl` blocks and the user's further items (which
are copied) define nothing that could clash here or are up to the user.
-/

namespace Verif.Names

open Verif.Analysis

inductive Ns where
  | value
  | type
deriving DecidableEq, Repr

inductive Def where
  /-- the user's function, `init.rs:72-83`, `idle.rs:37-50`, `hardware_tasks.rs:78-94`, `software_tasks.rs:34-68` -/
  | fn (t : Ident)
  /-- `pub mod #name`, `module.rs:310-319` -/
  | module (t : Ident)
  /-- `__rtic_internal_.._Context`, `module.rs:104,277-299` -/
  | context (t : Ident)
  /-- `struct #shared`, `struct #local`, `init.rs:56-66` -/
  | userStruct (i : Ident)
  /-- handler of a hardware task or dispatcher, `hardware_tasks.rs:30-50`, `async_dispatchers.rs:55-81` -/
  | handler (v : Ident)
  /-- `main.rs:27,39-59` -/
  | main
  /-- `RTIC_ASYNC_MAX_LOGICAL_PRIO`, `bindings/cortex.rs:358-362` -/
  | asyncMax
  /-- `use #device as #rt_err`, `codegen.rs:57`, `util.rs:159-165` -/
  | rtErr
  /-- `mod shared_resources`, `shared_resources.rs:110-116` -/
  | sharedMod
  /-- `shared_resources.rs:16,42-51`, `util.rs:139-141` -/
  | sharedStatic (r : Ident)
  /-- `local_resources.rs:16,42-51`, `util.rs:143-145` -/
  | localStatic (r : Ident)
  /-- `local_resources.rs:54-74`, `util.rs:147-149` -/
  | declaredStatic (t r : Ident)
  /-- `util.rs:167-184`, `async_dispatchers.rs:18-21` -/
  | exec (t : Ident)
  /-- `module.rs:121,165-186` -/
  | spawn (t : Ident)
  /-- `module.rs:122,188-203` -/
  | waker (t : Ident)
  /-- `module.rs:220,252-267` -/
  | localSpawner (t : Ident)
  /-- `async_dispatchers.rs:29,82-91`, `util.rs:155-157` -/
  | zeroDispatcher
  /-- `shared_resources_struct.rs:96-104`, `util.rs:97-113` -/
  | sharedStruct (t : Ident)
  /-- `local_resources_struct.rs:79-87`, `util.rs:115-131` -/
  | localStruct (t : Ident)
deriving DecidableEq, Repr

/-- namespace of a definition: functions and statics are values, modules, structs (with named fields) and imported crates are types -/
def Def.ns : Def → Ns
  | .fn _ | .handler _ | .main | .asyncMax | .sharedStatic _ | .localStatic _ | .declaredStatic _ _ | .exec _ | .spawn _ | .waker _ | .zeroDispatcher => .value
  | _ => .type

/-- names, `util.rs:9-17` (`mark_internal_name`, `internal_task_ident`) and the places cited at the constructors -/
def Def.name (txt : Ident → Text) : Def → Text
  | .fn t | .module t | .userStruct t | .handler t => txt t
  | .context t => internal ++ (txt t ++ "_Context".toList)
  | .main => "main".toList
  | .asyncMax => "RTIC_ASYNC_MAX_LOGICAL_PRIO".toList
  | .rtErr => "you_must_enable_the_rt_feature_for_the_pac_in_your_cargo_toml".toList
  | .sharedMod => "shared_resources".toList
  | .sharedStatic r => internal ++ ("shared_resource_".toList ++ txt r)
  | .localStatic r => internal ++ ("local_resource_".toList ++ txt r)
  | .declaredStatic t r => internal ++ ("local_".toList ++ txt t ++ "_".toList ++ txt r)
  | .exec t => internal ++ (txt t ++ "_EXEC".toList)
  | .spawn t => internal ++ (txt t ++ "_spawn".toList)
  | .waker t => internal ++ (txt t ++ "_waker".toList)
  | .localSpawner t => internal ++ (txt t ++ "_LocalSpawner".toList)
  | .zeroDispatcher => internal ++ "async_0_prio_dispatcher".toList
  | .sharedStruct t => internal ++ (txt t ++ "SharedResources".toList)
  | .localStruct t => internal ++ (txt t ++ "LocalResources".toList)

/-- definitions for any function: `module::codegen`, the structs of its resources if there are any -/
def forFn (t : Ident) (sh : Map Access) (lo : Map TaskLocal) : List Def :=
  [.fn t, .module t, .context t] ++ (if sh.isEmpty then [] else [.sharedStruct t]) ++ if lo.isEmpty then [] else [.localStruct t]

/-- `declared_local_resources`, `syntax/ast.rs`/`codegen/local_resources.rs:54-74` -/
def forDeclared (t : Ident) (lo : Map TaskLocal) : List Def :=
  lo.filterMap fun x => match x.2 with | .declared _ => some (.declaredStatic t x.1) | .external => none

/-- definitions for a software task besides: executor, `spawn`, waker, and a spawner if there are local tasks of its priority -/
def forSoftware (app : App) (t : Ident) (s : SwTask) : List Def :=
  [.exec t, .spawn t, .waker t] ++ if app.sw.any (fun x => x.2.localTask && decide (x.2.priority = s.priority)) then [.localSpawner t] else []

/-- definitions for `idle`, if there is one, `idle.rs:9-62` -/
def forIdle (app : App) : List Def := match app.idle with | some i => forFn i.name i.shared i.locals ++ forDeclared i.name i.locals | none => []

/-- name of the function of a dispatcher, `async_dispatchers.rs:26-30` -/
def dispatcherDef : Option Ident → Def
  | some v => .handler v
  | none => .zeroDispatcher

/-- `codegen::app`, `codegen.rs:32-83`: all definitions, not in the order of the code -/
def definitions (app : App) (p : Program) : List Def :=
  [.main, .asyncMax, .rtErr, .userStruct app.init.userShared, .userStruct app.init.userLocal] ++
  forFn app.init.name [] app.init.locals ++ forDeclared app.init.name app.init.locals ++
  forIdle app ++
  (app.hw.flatMap fun x => .handler x.2.binds :: (forFn x.1 x.2.shared x.2.locals ++ forDeclared x.1 x.2.locals)) ++
  (app.sw.flatMap fun x => forFn x.1 x.2.shared x.2.locals ++ forDeclared x.1 x.2.locals ++ forSoftware app x.1 x.2) ++
  (app.sharedRes.map fun x => .sharedStatic x.1) ++ (if p.mutexes.isEmpty then [] else [.sharedMod]) ++
  (app.localRes.map fun x => .localStatic x.1) ++ p.dispatchers.map fun x => dispatcherDef x.1

end Verif.Names
