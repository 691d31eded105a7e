import Verif.Analysis.Model

/-!
# The `#[app]` macro for RISC-V: ESP32-C3, ESP32-C6 and SLIC

Model of `rtic-macros/src/codegen/bindings/{esp32c3,esp32c6,riscv_slic}.rs`. Parsing, checks, analysis and code generation are those of `Verif.Analysis.Model`; only what the bindings do differently is defined here.
-/

namespace Verif.Analysis

/-- No identifier names a core exception: the RISC-V bindings know no exceptions. -/
def Target.riscv : Target := { isException := fun _ => false, isFixed := fun _ => false }

/-! ## ESP32 -/

inductive Chip where
  | c3
  | c6
deriving DecidableEq, Repr

/-- CPU interrupt line of the `i`-th interrupt: `curr_cpu_id..` from 16, `esp32c3.rs:86,93` (simplification: the counter is a `u8`, which overflows beyond 240 interrupts; no chip has as many);
`EXTERNAL_INTERRUPTS`, `esp32c6.rs:17-20,102` -/
def Chip.line : Chip → Nat → Option Nat
  | .c3, i => some (16 + i)
  | .c6, i => if i < 12 then some (20 + i) else none

/-- `architecture_specific_analysis`, `esp32c3.rs:123-167`, `esp32c6.rs:127-171`; `fromCpu`: the identifier is one of `FROM_CPU_INTR0` .. `FROM_CPU_INTR3` -/
def archCheckEsp (fromCpu : Ident → Bool) (app : App) : Res Unit := do
  app.dispatchers.forM fun d => if fromCpu d then .ok () else err (.exceptionDispatcher d)
  let need := (toSet ((app.sw.map fun nt => nt.2.priority).filter (0 < ·))).length
  if need > app.dispatchers.length then err .notEnough else .ok ()

/-- the chain of dispatchers and hardware tasks with their priorities, in the order of `esp32c3.rs:91-98` -/
def espVectors (app : App) (an : FullAnalysis) : List (Nat × Ident) := an.interrupts ++ app.hw.map fun nt => (nt.2.priority, nt.2.binds)

/-- zip with the lines: (vector, priority, line); what has no line is dropped by `zip` -/
def espZip (chip : Chip) : Nat → List (Nat × Ident) → List (Ident × Nat × Nat)
  | _, [] => []
  | i, pv :: l => match chip.line i with
    | none => []
    | some k => (pv.2, pv.1, k) :: espZip chip (i + 1) l

/-- arguments of the calls of `rtic::export::enable` in `pre_init_enable_interrupts`, `esp32c3.rs:93-118`, `esp32c6.rs:97-122` -/
def espEnables (chip : Chip) (app : App) (an : FullAnalysis) : List (Ident × Nat × Nat) := espZip chip 0 (espVectors app an)

/-- `handler_config`, `esp32c3.rs:202-225`, `esp32c6.rs:206-230`: numbers `n` of the attributes `#[export_name = "interrupt<n>"]` on the handler named `v` -/
def espExports (chip : Chip) (app : App) (an : FullAnalysis) (v : Ident) : List Nat :=
  ((espEnables chip app an).filter fun e => e.1 = v).map fun e => e.2.2

/-- `const _: () = if 15 <= priority { panic!() }; if 1 > priority { panic!() }`, `esp32c3.rs:106-109`: only for what is enabled -/
def espFits (es : List (Ident × Nat × Nat)) : Bool := es.all fun e => decide (1 ≤ e.2.1 ∧ e.2.1 < 15)

structure EspProgram where
  code : Program
  /-- (vector, priority, line) for every call of `enable` -/
  enables : List (Ident × Nat × Nat)
  /-- (handler, lines it is exported for) -/
  exports : List (Ident × List Nat)
deriving DecidableEq, Repr

/-- `fn main` with the calls of `enable` -/
def espMain (es : List (Ident × Nat × Nat)) (app : App) (an : FullAnalysis) : List Stmt :=
  [.disableInterrupts] ++ (es.flatMap fun e => [.setPriority e.1 e.2.1, .unmask e.1]) ++ [.callInit] ++
  ((app.sharedRes.filter fun kv => decide (kv.1 ∈ an.base.usedShared)).map fun kv => .writeShared kv.1) ++
  ((app.localRes.filter fun kv => decide (kv.1 ∈ an.base.usedLocal)).map fun kv => .writeLocal kv.1) ++
  [.enableInterrupts] ++ [lastStmt app]

/-- The macro for ESP32 after parsing, `rtic-macros/src/lib.rs:33-52` with `bindings/esp32c3.rs`, `bindings/esp32c6.rs` -/
def backEsp (chip : Chip) (fromCpu : Ident → Bool) (app : App) : Res EspProgram := do
  check app
  let base ← analyze app
  archCheckEsp fromCpu app
  let an ← fullAnalyze base app
  let p ← codegen .riscv app an
  let es := espEnables chip app an
  if espFits es then
    pure { code := { p with main := espMain es app an }, enables := es,
           -- `hardware_tasks.rs:26`, `async_dispatchers.rs:66`
           exports := (espVectors app an).map fun pv => (pv.2, espExports chip app an pv.2) }
  else err .prioRange

/-- The macro on ESP32, `rtic-macros/src/lib.rs:33-52`; `pre_init_preprocessing` does nothing (`esp32c3.rs:67-69`). -/
def expandEsp (chip : Chip) (fromCpu : Ident → Bool) (raw : Raw) : Res EspProgram := do
  let app ← parse raw
  backEsp chip fromCpu app

/-! ## SLIC -/

/-- `pre_init_preprocessing`, `riscv_slic.rs:66-92`; `fresh i` is the identifier `__RTICDispatcher<i>` -/
def slicPreprocess (fresh : Nat → Ident) (app : App) : Res App :=
  if app.dispatchers ≠ [] then err .unexpectedArg
  else .ok { app with dispatchers := (List.range (toSet ((app.sw.map fun nt => nt.2.priority).filter (0 < ·))).length).map fresh }

/-- `architecture_specific_analysis`, `riscv_slic.rs:126-160` (`backend`: whether the argument of that name was given, only for CLINT) -/
def archCheckSlic (backend : Bool) (app : App) : Res Unit := do
  let need := (toSet ((app.sw.map fun nt => nt.2.priority).filter (0 < ·))).length
  if need > app.dispatchers.length then err .notEnough else .ok ()
  if backend then .ok () else err .unexpectedArg

/-- `extra_modules`, `riscv_slic.rs:205-237`: the software interrupts that the SLIC is generated with -/
def slicSwi (app : App) : List Ident := (app.hw.map fun nt => nt.2.binds) ++ app.dispatchers

structure SlicProgram where
  /-- `set_priority`, `riscv_slic.rs:106-123`, is `setPriority` followed by `unmask` here (simplification: SLIC software interrupts are not masked one by one) -/
  code : Program
  swi : List Ident
deriving DecidableEq, Repr

/-- The macro with SLIC after parsing, `rtic-macros/src/lib.rs:33-52` -/
def backSlic (fresh : Nat → Ident) (backend : Bool) (app : App) : Res SlicProgram := do
  check app
  let base ← analyze app
  let app ← slicPreprocess fresh app
  archCheckSlic backend app
  let an ← fullAnalyze base app
  let p ← codegen .riscv app an
  pure { code := p, swi := slicSwi app }

/-- The macro with SLIC, `rtic-macros/src/lib.rs:33-52`: preprocessing comes after `syntax::parse` (parse, check, analyze). There is no check of the range of the priorities. -/
def expandSlic (fresh : Nat → Ident) (backend : Bool) (raw : Raw) : Res SlicProgram := do
  let app ← parse raw
  backSlic fresh backend app

end Verif.Analysis
