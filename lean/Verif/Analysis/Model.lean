import Verif.Analysis.Ast

/-!
# Checks, analysis and code generation of the `#[app]` macro

Model of `rtic-macros/src/syntax/{check,accessors,analyze}.rs`, `rtic-macros/src/{lib,analyze,check}.rs`, and of the semantic content of
`rtic-macros/src/codegen/{shared_resources,shared_resources_struct,local_resources_struct,async_dispatchers,module,hardware_tasks,assertions,main,pre_init,post_init}.rs` and
`codegen/bindings/cortex.rs`.
-/

namespace Verif.Analysis

/-! ## accessors -/

/-- `shared_resource_accesses`, `accessors.rs:9-32`: (priority, name, access) of idle, hardware tasks, software tasks; the priority is always `Some` -/
def sharedAccesses (app : App) : List (Nat × Ident × Access) :=
  (app.idle.toList.flatMap fun i => i.shared.map fun ra => (0, ra.1, ra.2)) ++
  (app.hw.flatMap fun nt => nt.2.shared.map fun ra => (nt.2.priority, ra.1, ra.2)) ++
  (app.sw.flatMap fun nt => nt.2.shared.map fun ra => (nt.2.priority, ra.1, ra.2))

/-- `filter(is_external).map(name)`, `accessors.rs:34-36,42-44` -/
def externals (m : Map TaskLocal) : List Ident := (m.filter fun kv => kv.2 = .external).map Prod.fst

/-- `local_resource_accesses`, `accessors.rs:38-66` -/
def localAccesses (app : App) : List Ident :=
  externals app.init.locals ++ (app.idle.toList.flatMap fun i => externals i.locals) ++
  (app.hw.flatMap fun nt => externals nt.2.locals) ++ (app.sw.flatMap fun nt => externals nt.2.locals)

/-! ## `syntax::check::app` -/

/-- `check::app`, `check.rs:7-66` -/
def check (app : App) : Res Unit := do
  -- lines 11-22 (`owners` is not used afterwards)
  (sharedAccesses app).forM fun a => if has app.sharedRes a.2.1 then .ok () else err (.undeclaredShared a.2.1)
  -- lines 24-31
  (localAccesses app).forM fun r => if has app.localRes r then .ok () else err (.undeclaredLocal r)
  -- lines 34-51
  let exclusive := (sharedAccesses app).filterMap fun a => if a.2.2 = .exclusive then some a.2.1 else none
  (sharedAccesses app).forM fun a => if a.2.2 = .shared ∧ a.2.1 ∈ exclusive then err (.mixedAccess a.2.1) else .ok ()
  -- lines 54-63
  app.hw.forM fun nt => if nt.2.binds ∈ app.dispatchers then err (.dispatcherIsTask nt.2.binds) else .ok ()

/-! ## `syntax::analyze::app` -/

/-- an entry of `task_resources_list` -/
structure TaskRes where
  name : Ident
  shared : List Ident
  locals : Map TaskLocal
  priority : Nat

/-- `task_resources_list`, `analyze.rs:20-60` -/
def taskList (app : App) : List TaskRes :=
  [{ name := app.init.name, shared := [], locals := app.init.locals, priority := 0 }] ++
  (app.idle.toList.map fun i => { name := i.name, shared := i.shared.map Prod.fst, locals := i.locals, priority := 0 }) ++
  (app.sw.map fun nt => { name := nt.1, shared := nt.2.shared.map Prod.fst, locals := nt.2.locals, priority := nt.2.priority }) ++
  (app.hw.map fun nt => { name := nt.1, shared := nt.2.shared.map Prod.fst, locals := nt.2.locals, priority := nt.2.priority })

/-- `error`, `lf_res_with_error`, `lf_hash`, `analyze.rs:62-64`; the hash holds the priority of the last use -/
structure LfSt where
  errors : List Err := []
  bad : List Ident := []
  hash : Map Nat := []

/-- body of the innermost loop, `analyze.rs:77-107` -/
def lfUse (app : App) (lf task : Ident) (prio : Nat) (s : LfSt) (r : Ident) : LfSt :=
  if lf = r then
    -- lines 81-89
    let errors := if has app.sw task then s.errors ++ [.lockFreeAsync r] else s.errors
    -- lines 92-105
    let bad := match get? s.hash r with
      | some old =>
        let bad := if prio ≠ old then s.bad ++ [r, r] else s.bad
        if r ∈ bad then bad ++ [r, r] else bad
      | none => s.bad
    { errors := errors, bad := bad, hash := insert s.hash r prio }
  else s

/-- `analyze.rs:67-72` -/
def lockFree (app : App) : List Ident := (app.sharedRes.filter fun kv => kv.2.lockFree).map Prod.fst

/-- the loops of `analyze.rs:75-109` -/
def lfCheck (app : App) : LfSt :=
  (lockFree app).foldl (fun s lf => (taskList app).foldl (fun s t => t.shared.foldl (lfUse app lf t.name t.priority) s) s) {}

/-- `lr_with_error`, `lr_hash`, `analyze.rs:138-139` (the hash is only used as a set of names) -/
structure LrSt where
  bad : List Ident := []
  hash : Map Unit := []

/-- body of the innermost loop, `analyze.rs:144-163` -/
def lrUse (lr : Ident) (s : LrSt) (nk : Ident × TaskLocal) : LrSt :=
  if lr = nk.1 then
    match nk.2 with
    | .external => { bad := if has s.hash nk.1 then s.bad ++ [nk.1, nk.1] else s.bad, hash := insert s.hash nk.1 () }
    | .declared _ => { s with bad := s.bad ++ [lr, nk.1] }
  else s

/-- the loops of `analyze.rs:142-165` -/
def lrCheck (app : App) : LrSt :=
  (app.localRes.map Prod.fst).foldl (fun s lr => (taskList app).foldl (fun s t => t.locals.foldl (lrUse lr) s) s) {}

/-- all errors collected in `analyze.rs:62-192` -/
def analyzeErrors (app : App) : List Err :=
  let lf := lfCheck app
  let lr := lrCheck app
  lf.errors ++
  -- lines 112-122
  ((lockFree app).filter fun r => r ∈ lf.bad).map .lockFreeStruct ++
  -- lines 125-133
  lf.bad.map .lockFreePrio ++
  -- lines 168-176
  lr.bad.map .localShared ++
  -- lines 179-192
  (app.sw.filter fun nt => nt.2.priority = 0 ∧ app.idle.isSome).map fun nt => .prioZeroIdle nt.1

/-- `Ownership`, `analyze.rs:388-406` -/
inductive Ownership where
  | owned (priority : Nat)
  | coOwned (priority : Nat)
  | contended (ceiling : Nat)
deriving DecidableEq, Repr

/-- the number carried by an `Ownership`, used by the matches in `analyze.rs:266-270`, `282-286` and `codegen/shared_resources.rs:88-92` -/
def Ownership.level : Ownership → Nat
  | .owned p | .coOwned p | .contended p => p

structure OwnSt where
  /-- `used_shared_resource` -/
  used : List Ident := []
  ownerships : Map Ownership := []
  syncTypes : List Ty := []

/-- body of the loop `analyze.rs:205-240` -/
def ownStep (app : App) (s : OwnSt) (a : Nat × Ident × Access) : Res OwnSt :=
  let (priority, name, access) := a
  match get? app.sharedRes name with
  | none => .error .bug -- line 206
  | some res =>
    let used := if name ∈ s.used then s.used else s.used ++ [name]
    match get? s.ownerships name with
    | some o =>
      if priority ≠ o.level then
        .ok { used := used, ownerships := insert s.ownerships name (.contended (max o.level priority)),
              syncTypes := if access = .shared then s.syncTypes ++ [res.ty] else s.syncTypes }
      else match o with
        | .owned _ => .ok { s with used := used, ownerships := insert s.ownerships name (.coOwned priority) }
        | _ => .ok { s with used := used }
    | none => .ok { s with used := used, ownerships := insert s.ownerships name (.owned priority) }

/-- the locals of all tasks with the priority of the task, in the order of `analyze.rs:245-246` -/
def allLocals (app : App) : List (Nat × Ident × TaskLocal) := (taskList app).flatMap fun t => t.locals.map fun nk => (t.priority, nk.1, nk.2)

/-- `analyze.rs:254-256` -/
def ownLocal (o : Map Ownership) (l : Nat × Ident × TaskLocal) : Map Ownership :=
  if l.2.2 = .external then insert o l.2.1 (.owned l.1) else o

/-- `channels`: tasks per priority, `analyze.rs:292-299`; a `BTreeMap` of `BTreeSet`s, here: the priorities with their tasks -/
def channelTasks (app : App) (prio : Nat) : List Ident := (app.sw.filter fun nt => nt.2.priority = prio).map Prod.fst

/-- `Analysis`, `analyze.rs:335-359` -/
structure Analysis where
  usedShared : List Ident
  usedLocal : List Ident
  ownerships : Map Ownership
  sendTypes : List Ty
  syncTypes : List Ty
deriving DecidableEq, Repr

/-- "ceiling is not 0", `analyze.rs:264-272`, `279-287` -/
def needsSend (o : Map Ownership) (name : Ident) : Bool := match get? o name with | some w => w.level ≠ 0 | none => false

/-- `analyze::app`, `syntax/analyze.rs:14-320` -/
def analyze (app : App) : Res Analysis := do
  let errors := analyzeErrors app
  if errors ≠ [] then .error (.errors errors)
  else
    let s ← (sharedAccesses app).foldlM (ownStep app) {}
    let own := (allLocals app).foldl ownLocal s.ownerships
    pure { usedShared := s.used,
           usedLocal := (allLocals app).map fun l => l.2.1,
           ownerships := own,
           sendTypes := ((app.sharedRes.filter fun kv => needsSend own kv.1).map fun kv => kv.2.ty) ++
             ((app.localRes.filter fun kv => needsSend own kv.1).map fun kv => kv.2) ++
             ((app.sw.filter fun nt => !nt.2.localTask).flatMap fun nt => nt.2.inputs),
           syncTypes := s.syncTypes }

/-! ## architecture specific check and dispatcher assignment -/

/-- insertion into a `BTreeSet<u8>` -/
def setInsert (x : Nat) : List Nat → List Nat
  | [] => [x]
  | y :: l => if x < y then x :: y :: l else if x = y then y :: l else y :: setInsert x l

/-- `collect::<BTreeSet<_>>()` -/
def toSet (l : List Nat) : List Nat := l.foldl (fun s x => setInsert x s) []

/-- insertion into a `BTreeMap<Priority, _>` -/
def bmInsert (k : Nat) (v : Ident) : List (Nat × Ident) → List (Nat × Ident)
  | [] => [(k, v)]
  | (k', v') :: l => if k < k' then (k, v) :: (k', v') :: l else if k = k' then (k, v) :: l else (k', v') :: bmInsert k v l

/-- what the target knows: which identifiers name core exceptions -/
structure Target where
  /-- exceptions with configurable priority, `is_exception`, `bindings/cortex.rs:17-31` -/
  isException : Ident → Bool
  /-- `NonMaskableInt`, `HardFault`, `bindings/cortex.rs:274,319` -/
  isFixed : Ident → Bool

/-- `architecture_specific_analysis`, `bindings/cortex.rs:267-331` -/
def archCheck (tg : Target) (app : App) : Res Unit := do
  -- lines 270-284
  app.dispatchers.forM fun d => if tg.isException d || tg.isFixed d then err (.exceptionDispatcher d) else .ok ()
  -- lines 288-312; `first.unwrap()` is `Some` because a priority was collected
  let need := (toSet ((app.sw.map fun nt => nt.2.priority).filter (0 < ·))).length
  if need > app.dispatchers.length then err .notEnough else .ok ()
  -- lines 316-328
  app.hw.forM fun nt => if tg.isFixed nt.2.binds then err (.badException nt.1) else .ok ()

/-- `.map(|p| (p, available_dispatchers.pop().expect("UNREACHABLE")))`, `rtic-macros/src/analyze.rs:49-57` -/
def popAll : List Nat → List Ident → Res (List (Nat × Ident))
  | [], _ => .ok []
  | p :: ps, ds => match ds.getLast? with
    | none => .error .bug
    | some d => do let rest ← popAll ps ds.dropLast; pure ((p, d) :: rest)

/-- the extended `Analysis` of `rtic-macros/src/analyze.rs:11-15` -/
structure FullAnalysis where
  base : Analysis
  interrupts : List (Nat × Ident)
  maxAsyncPrio : Option Nat
deriving DecidableEq, Repr

/-- `app`, `rtic-macros/src/analyze.rs:26-72` -/
def fullAnalyze (base : Analysis) (app : App) : Res FullAnalysis := do
  let priorities := toSet (app.sw.map fun nt => nt.2.priority)
  let nonzero := priorities.filter (0 < ·)
  -- lines 42-45
  if app.dispatchers.length < nonzero.length then .error .bug
  else
    let pairs ← popAll nonzero.reverse app.dispatchers
    let interrupts := pairs.foldl (fun m kv => bmInsert kv.1 kv.2 m) []
    -- lines 60-65
    match (app.hw.map fun nt => nt.2.priority).min? with
    | none => pure { base := base, interrupts := interrupts, maxAsyncPrio := none }
    | some 0 => .error .bug -- `v - 1` on `u8`
    | some (v + 1) => pure { base := base, interrupts := interrupts, maxAsyncPrio := some v }

/-! ## the generated program -/

/-- How a task's context gives access to a shared resource, `codegen/shared_resources_struct.rs:25-86` -/
inductive Handle where
  /-- `&mut T`, lines 40-52,77 -/
  | direct
  /-- `&T`, lines 53-58,79 -/
  | reference
  /-- a proxy with `lock`, lines 59-74 -/
  | proxy
deriving DecidableEq, Repr

/-- lines 40-80 -/
def handleOf (res : SharedRes) (a : Access) : Handle :=
  if res.lockFree then (if a = .exclusive then .direct else .reference)
  else if a = .shared then .reference else .proxy

/-- a context of a task: what `SharedResources::new()` and `LocalResources::new()` construct -/
structure Context where
  task : Ident
  priority : Nat
  isAsync : Bool
  shared : List (Ident × Handle)
  /-- (name, true = field of the `#[local]` struct / false = declared in the attribute) -/
  locals : List (Ident × Bool)
deriving DecidableEq, Repr

/-- `CEILING` of the generated `Mutex` impl, `codegen/shared_resources.rs:88-92` -/
def ceilingOf (an : Analysis) (r : Ident) : Nat := match get? an.ownerships r with | some o => o.level | none => 0

/-- statements of the generated `main` -/
inductive Stmt where
  | disableInterrupts
  | setPriority (vector : Ident) (prio : Nat)
  | unmask (vector : Ident)
  | callInit
  | writeShared (r : Ident)
  | writeLocal (r : Ident)
  | enableInterrupts
  /-- `#idle(..)` / zero priority dispatcher / `loop {}` -/
  | callIdle (name : Ident)
  | zeroDispatcher
  | spin
deriving DecidableEq, Repr

/-- Semantic content of the generated code. -/
structure Program where
  contexts : List Context
  /-- (resource, ceiling) for every proxy type -/
  mutexes : List (Ident × Nat)
  /-- hardware handlers: (vector, priority, task), `codegen/hardware_tasks.rs:19-50` -/
  hwHandlers : List (Ident × Nat × Ident)
  /-- dispatchers: (vector, priority, polled tasks); `none` is the priority 0 dispatcher called from `main`; `codegen/async_dispatchers.rs:23-92` -/
  dispatchers : List (Option Ident × Nat × List Ident)
  /-- task ↦ vector pended by `spawn` and by its waker, `codegen/module.rs:113-119,176-203` -/
  pends : List (Ident × Option Ident)
  /-- (spawning task, spawned local task): methods of `LocalSpawner`s, `codegen/module.rs:213-268` -/
  localSpawn : List (Ident × Ident)
  /-- tasks with a safe, freely callable `spawn`, `codegen/module.rs:205-211` -/
  freeSpawn : List Ident
  sendAsserts : List Ty
  syncAsserts : List Ty
  /-- `RTIC_ASYNC_MAX_LOGICAL_PRIO`, `codegen/bindings/cortex.rs:349-363`; `none`: no limit -/
  asyncMax : Option Nat
  main : List Stmt
deriving DecidableEq, Repr

/-- one `SharedResources::new()`; `expect("UNREACHABLE")` in `shared_resources_struct.rs:26` -/
def sharedHandles (app : App) (m : Map Access) : Res (List (Ident × Handle)) :=
  m.mapM fun ra => match get? app.sharedRes ra.1 with
    | none => .error .bug
    | some res => .ok (ra.1, handleOf res ra.2)

/-- one `LocalResources::new()`; `expect("UNREACHABLE")` in `local_resources_struct.rs:33` -/
def localHandles (app : App) (m : Map TaskLocal) : Res (List (Ident × Bool)) :=
  m.mapM fun rk => match rk.2 with
    | .external => if has app.localRes rk.1 then .ok (rk.1, true) else .error .bug
    | .declared _ => .ok (rk.1, false)

/-- a context, `codegen/module.rs:9-89` -/
def context (app : App) (task : Ident) (prio : Nat) (isAsync : Bool) (sh : Map Access) (l : Map TaskLocal) : Res Context := do
  let s ← sharedHandles app sh
  let ls ← localHandles app l
  pure { task := task, priority := prio, isAsync := isAsync, shared := s, locals := ls }

def optCtx (app : App) : Option Idle → Res (List Context)
  | none => .ok []
  | some i => do let c ← context app i.name 0 false i.shared i.locals; pure [c]

/-- all contexts of tasks (that of `init` has only declared locals) -/
def contexts (app : App) : Res (List Context) := do
  let i ← optCtx app app.idle
  let h ← app.hw.mapM fun nt => context app nt.1 nt.2.priority false nt.2.shared nt.2.locals
  let s ← app.sw.mapM fun nt => context app nt.1 nt.2.priority true nt.2.shared nt.2.locals
  pure (i ++ h ++ s)

/-- the vector for a software priority; `expect("UNREACHABLE")` in `async_dispatchers.rs:27`, `module.rs:115` -/
def vectorFor (an : FullAnalysis) (prio : Nat) : Res (Option Ident) :=
  if prio > 0 then match an.interrupts.lookup prio with
    | none => .error .bug
    | some d => .ok (some d)
  else .ok none

/-- `pre_init_enable_interrupts`, `bindings/cortex.rs:204-265`; the compile-time assertion that the priority is supported is in `fits` below -/
def preInitEnable (tg : Target) (app : App) (an : FullAnalysis) : List Stmt :=
  let vs := an.interrupts ++ (app.hw.filter fun nt => !tg.isException nt.2.binds).map fun nt => (nt.2.priority, nt.2.binds)
  (vs.flatMap fun pv => [.setPriority pv.2 pv.1, .unmask pv.2]) ++
  (app.hw.filter fun nt => tg.isException nt.2.binds).map fun nt => .setPriority nt.2.binds nt.2.priority

/-- `const _: () = if (1 << NVIC_PRIO_BITS) < priority { panic!() }`, `bindings/cortex.rs:225-228,253-256`: otherwise the generated code does not compile -/
def fits (bits : Nat) (app : App) (an : FullAnalysis) : Bool :=
  (an.interrupts.map Prod.fst ++ app.hw.map fun nt => nt.2.priority).all fun p => decide (p ≤ 2 ^ bits)

/-- `call_idle`, `codegen/main.rs:17-25` -/
def lastStmt (app : App) : Stmt :=
  match app.idle with
  | some i => .callIdle i.name
  | none => if (app.sw.any fun nt => nt.2.priority = 0) then .zeroDispatcher else .spin

/-- `fn main`, `codegen/main.rs:41-59` with `pre_init.rs:8-26` and `post_init.rs:6-47` -/
def mainStmts (tg : Target) (app : App) (an : FullAnalysis) : List Stmt :=
  [.disableInterrupts] ++ preInitEnable tg app an ++ [.callInit] ++
  ((app.sharedRes.filter fun kv => decide (kv.1 ∈ an.base.usedShared)).map fun kv => .writeShared kv.1) ++
  ((app.localRes.filter fun kv => decide (kv.1 ∈ an.base.usedLocal)).map fun kv => .writeLocal kv.1) ++
  [.enableInterrupts] ++ [lastStmt app]

/-- `codegen::app`, `codegen.rs:32-83` -/
def codegen (tg : Target) (app : App) (an : FullAnalysis) : Res Program := do
  let ctxs ← contexts app
  let disp ← (toSet (app.sw.map fun nt => nt.2.priority)).mapM fun level => do
    let v ← vectorFor an level
    pure (v, level, channelTasks app level)
  let pends ← app.sw.mapM fun nt => do let v ← vectorFor an nt.2.priority; pure (nt.1, v)
  pure { contexts := ctxs,
         mutexes := (app.sharedRes.filter fun kv => !kv.2.lockFree).map fun kv => (kv.1, ceilingOf an.base kv.1),
         hwHandlers := app.hw.map fun nt => (nt.2.binds, nt.2.priority, nt.1),
         dispatchers := disp, pends := pends,
         localSpawn := app.sw.flatMap fun nt => (app.sw.filter fun mt => mt.2.localTask && decide (mt.2.priority = nt.2.priority)).map fun mt => (nt.1, mt.1),
         freeSpawn := (app.sw.filter fun nt => !nt.2.localTask).map Prod.fst,
         sendAsserts := an.base.sendTypes, syncAsserts := an.base.syncTypes, asyncMax := an.maxAsyncPrio,
         main := mainStmts tg app an }

/-- The macro: `app`, `rtic-macros/src/lib.rs:33-52` and `syntax::parse2`, `syntax.rs:105-118`. `bits`: `NVIC_PRIO_BITS`; if the generated assertion fails the application is
refused by the compiler. -/
def expand (tg : Target) (bits : Nat) (raw : Raw) : Res Program := do
  let app ← parse raw
  check app
  let base ← analyze app
  archCheck tg app
  let an ← fullAnalyze base app
  let p ← codegen tg app an
  if fits bits app an then pure p else err .prioRange

end Verif.Analysis
