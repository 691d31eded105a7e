/-!
# Storage of task executors

Model of `rtic/src/export/executor.rs:30-210` (`ExecFn`, `exec_size`, `exec_align`, `exec_new`, `ExecutorHolder`, `exec_from_holder`, `Align`) and of the two expressions built by `rtic-macros/src/codegen/util.rs:167-195` (`executor_decl`, `executor_expr`).

The layout of types is that of the Rust reference ("Type layout"): `#[repr(C)]` structs are laid out field by field, `#[repr(align(n))] struct X {}` has size 0 and alignment `n`, `UnsafeCell`, `MaybeUninit` and `#[repr(transparent)]` change nothing; the layout of `AsyncTaskExecutor`
(`#[repr(Rust)]`) is whatever the compiler chooses (`ExecTy`, an arbitrary choice subject to the guarantees of the reference). Only this and the meaning of `transmute` (bytes are copied, sizes must agree) is taken from outside.
-/

namespace Verif.Storage

structure Layout where
  size : Nat
  align : Nat
deriving DecidableEq, Repr

/-- "The alignment of a value ... is always a power of 2. The size of a value is always a multiple of its alignment." -/
structure Layout.Valid (l : Layout) : Prop where
  pow : ∃ k, l.align = 2 ^ k
  mul : l.align ∣ l.size

def roundUp (n a : Nat) : Nat := (n + a - 1) / a * a

/-- `u8`, also `MaybeUninit<u8>` and `AtomicBool` -/
def byte : Layout := ⟨1, 1⟩

/-- `[T; n]` -/
def array (l : Layout) (n : Nat) : Layout := ⟨l.size * n, l.align⟩

/-- end of the last field and largest alignment so far; the offsets of the fields -/
def reprCFrom (cur al : Nat) : List Layout → Nat × Nat × List Nat
  | [] => (cur, al, [])
  | f :: fs =>
    let off := roundUp cur f.align
    let r := reprCFrom (off + f.size) (max al f.align) fs
    (r.1, r.2.1, off :: r.2.2)

/-- `#[repr(C)] struct`: layout and offsets of its fields -/
def reprC (fs : List Layout) : Layout × List Nat :=
  let r := reprCFrom 0 1 fs
  (⟨roundUp r.1 r.2.1, r.2.1⟩, r.2.2)

/-- the alignments for which `Align<N>: Alignment`, `executor.rs:183-199` -/
def aligns : List Nat := [1, 2, 4, 8, 16, 32, 64, 128, 256, 512, 1024, 2048, 4096, 8192, 16384]

/-- `Align<N>([Archetype; 0])`, `executor.rs:158-181`; `none`: there is no `impl Alignment for Align<N>`, the program is refused -/
def alignTy (n : Nat) : Option Layout := if n ∈ aligns then some (array ⟨0, n⟩ 0) else none

/-- `ExecutorHolder<SIZE, ALIGN>`, `executor.rs:113-121`: layout, offsets of `data` and `align` -/
def holder (size align : Nat) : Option (Layout × List Nat) := (alignTy align).map fun a => reprC [array byte size, a]

/-- `AsyncTaskExecutor<Fut>`, `executor.rs:205-210`, as laid out by the compiler: offsets of `task`, `running`, `pending`. -/
structure ExecTy where
  layout : Layout
  task : Nat
  running : Nat
  pending : Nat

/-- what the reference guarantees about structs: fields are aligned, do not overlap, lie within the struct; the struct is aligned at least like its fields -/
structure ExecTy.Valid (e : ExecTy) (fut : Layout) : Prop where
  layout : e.layout.Valid
  align : fut.align ∣ e.layout.align
  aligned : fut.align ∣ e.task
  fits : e.task + fut.size ≤ e.layout.size
  rfits : e.running < e.layout.size
  pfits : e.pending < e.layout.size
  ne : e.running ≠ e.pending
  rdis : e.running < e.task ∨ e.task + fut.size ≤ e.running
  pdis : e.pending < e.task ∨ e.task + fut.size ≤ e.pending

/-- `ExecFn<Args>` is implemented for functions of up to 16 arguments, `executor.rs:43-76`; the first argument of a task is its context -/
def hasExecFn (inputs : Nat) : Bool := decide (inputs + 1 ≤ 16)

/-- bytes of `AsyncTaskExecutor::new()`, `executor.rs:223-229`: both flags `false`; the future and the padding are uninitialised -/
def newImage (e : ExecTy) (i : Nat) : Option UInt8 := if i = e.running ∨ i = e.pending then some 0 else none

/-- a static: its layout, the offset of its bytes and its initial bytes -/
structure Static where
  layout : Layout
  data : Nat
  image : Nat → Option UInt8

/-- `executor_decl`: `static EXEC: ExecutorHolder<{exec_size(f)}, {exec_align(f)}> = transmute(exec_new(f))`, `util.rs:171-184`. `none`: does not compile (no `ExecFn`, no `Alignment`, or `transmute` between different sizes) -/
def executorDecl (inputs : Nat) (e : ExecTy) : Option Static :=
  if hasExecFn inputs then
    match holder e.layout.size e.layout.align with
    | some (l, offs) => if l.size = e.layout.size then some { layout := l, data := offs.headD 0, image := newImage e } else none
    | none => none
  else none

/-- `executor_expr`: `exec_from_holder(f, &EXEC)`, `util.rs:189-195`, `executor.rs:133-156`: the address of the executor in a static at address `addr`, whose parameters were `size` and `align` -/
def execFromHolder (size align : Nat) (e : ExecTy) (st : Static) (addr : Nat) : Option Nat :=
  if size = e.layout.size ∧ align = e.layout.align then some (addr + st.data) else none

/-- the linker placed the static at `addr`; the memory holds its initial bytes -/
structure Placed (st : Static) (addr : Nat) (mem : Nat → Option UInt8) : Prop where
  aligned : st.layout.align ∣ addr
  bytes : ∀ i < st.layout.size, mem (addr + i) = st.image i

end Verif.Storage
