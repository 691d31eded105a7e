/-!
# Resource locking by masking interrupt sources

Model of `rtic/src/export/cortex_source_mask.rs` (Cortex-M0, M0+, M23: no BASEPRI), of the mask tables generated by
`rtic-macros/src/codegen/bindings/cortex.rs:50-127` (`source_masking::impl_mutex`), and of the interrupt enable registers of the NVIC.

Part 1 is the compile-time computation of masks. Part 2 is a machine with one core and nested interrupts in which every access to a register of the NVIC is one step, so interrupts may arrive
between any two accesses. As in `Verif.Srp`, a task is an interrupt handler (hardware task, or dispatcher with the software tasks it polls), or idle; in every state the running task may lock any resource
it uses, release its innermost lock, enter a critical section of its own, call the safe function `NVIC::mask` for any interrupt, or return if it holds no lock.
-/

namespace Verif.SourceMask

/-! ## Masks -/

/-- `Mask<M>([u32; M])`, `cortex_source_mask.rs:15`; the length of the list is `M` -/
abbrev Mask := List (BitVec 32)

/-- `Mask([0; M])` -/
def zero (M : Nat) : Mask := List.replicate M 0#32

/-- `Mask::set_bit`, `cortex_source_mask.rs:51-63`; `none`: the `panic!` (a compile error, since the masks are constants) -/
def setBit (m : Mask) (bit : Nat) : Option Mask :=
  let block := bit / 32
  if block ≥ m.length then none
  else
    let offset := bit - block * 32
    some (m.set block (m.getD block 0#32 ||| (1#32 <<< offset)))

/-- `create_mask`, `cortex_source_mask.rs:17-28`: the loop over the list of interrupt numbers -/
def createMask (M : Nat) (shifts : List Nat) : Option Mask :=
  shifts.foldlM setBit (zero M)

/-- `compute_mask_chunks`, `cortex_source_mask.rs:34-47` -/
def computeMaskChunks (ids : List Nat) : Nat :=
  (ids.foldl (fun max id => if id > max then id else max) 0 + 32) / 32

/-- the inner loop of `compute_mask`, `cortex_source_mask.rs:162-166`: `res.0[i] |= masks[idx].0[i]` for `i < M` -/
def orInto (res m : Mask) : Mask := res.zipWith (· ||| ·) m

/-- `compute_mask`, `cortex_source_mask.rs:150-177`. `masks` is the array of three masks; the loop index stays below `to_prio`, which is at most 3 where `lock` calls it (`cortex_source_mask.rs:126`). -/
def computeMask (M fromPrio toPrio : Nat) (masks : List Mask) : Mask :=
  (List.range' fromPrio (toPrio - fromPrio)).foldl (fun res idx => orInto res (masks.getD idx (zero M))) (zero M)

/-- The interrupts known to `impl_mutex`: pairs (priority, interrupt number) of the dispatchers and of the hardware tasks not bound to exceptions, `bindings/cortex.rs:68-86`. -/
abbrev Irqs := List (Nat × Nat)

/-- `N_CHUNKS`, `bindings/cortex.rs:113` -/
def nChunks (irqs : Irqs) : Nat := computeMaskChunks (irqs.map (·.2))

/-- argument of the `i`-th `create_mask`: the interrupts pushed to entry `priority - 1 == i`, `bindings/cortex.rs:83-101` -/
def shiftsAt (irqs : Irqs) (i : Nat) : List Nat := (irqs.filter (fun x => x.1 - 1 = i)).map (·.2)

/-- `MASKS`, `bindings/cortex.rs:92-102,114`: three masks -/
def genMasks (irqs : Irqs) : Option (List Mask) :=
  (List.range 3).mapM (fun i => createMask (nChunks irqs) (shiftsAt irqs i))

/-- is interrupt `n` in a mask -/
def Mask.has (m : Mask) (n : Nat) : Bool := (m.getD (n / 32) 0#32).getLsbD (n % 32)

/-! ## The machine -/

/-- An application -/
structure Cfg where
  /-- priority of a task, 0 for idle -/
  prio : Nat → Nat
  /-- `some n`: bound to interrupt `n`; `none`: idle, or bound to an exception -/
  bind : Nat → Option Nat
  uses : Nat → Nat → Prop
  /-- `const CEILING`, `bindings/cortex.rs:112` -/
  ceil : Nat → Nat
  irqs : Irqs
  /-- the generated constant -/
  masks : List Mask

/-- the mask used by `lock` for resource `r`, `cortex_source_mask.rs:134` -/
def Cfg.mask (c : Cfg) (r : Nat) : Mask := computeMask (nChunks c.irqs) 0 (c.ceil r) c.masks

/-- chunk `i` of the mask -/
def Cfg.m (c : Cfg) (r i : Nat) : BitVec 32 := (c.mask r).getD i 0#32

abbrev Regs := Nat → BitVec 32

def upd (f : Regs) (i : Nat) (v : BitVec 32) : Regs := fun j => if j = i then v else f j

inductive Rec where
  /-- task `t` runs (`run` only calls the closure, `cortex_source_mask.rs:67-72`) -/
  | body (t : Nat)
  /-- in `read_mask`, about to look at chunk `i`, `cortex_source_mask.rs:184-189` -/
  | rd (r i : Nat) (old : Regs)
  /-- in `clear_enable_mask`, chunk `i`, `cortex_source_mask.rs:210-217` -/
  | cl (r i : Nat) (old : Regs)
  /-- the closure runs, `cortex_source_mask.rs:139` -/
  | lk (r : Nat) (old : Regs)
  /-- in `set_enable_mask`, chunk `i`, `cortex_source_mask.rs:197-204` -/
  | st (r i : Nat) (old : Regs)
  /-- in `critical_section::with`: interrupt state read, `cortex_source_mask.rs:131`; `none` for a critical section of the application -/
  | cs0 (r : Option Nat) (wasMasked : Bool)
  /-- in `critical_section::with`: interrupts disabled, closure runs -/
  | cs (r : Option Nat) (wasMasked : Bool)

structure St where
  stack : List Rec
  /-- interrupt enable registers: read and set through ISER, cleared through ICER -/
  en : Regs
  /-- PRIMASK -/
  pm : Bool

def top : List Rec → Option Nat
  | [] => none
  | .body t :: _ => some t
  | _ :: rest => top rest

/-- is interrupt `n` enabled -/
def enabled (en : Regs) (n : Nat) : Bool := (en (n / 32)).getLsbD (n % 32)

/-- Does the hardware start the handler of `t` while `cur` executes? Exceptions have no enable bit. -/
def admits (c : Cfg) (s : St) (cur t : Nat) : Prop :=
  s.pm = false ∧ c.prio cur < c.prio t ∧ ∀ n, c.bind t = some n → enabled s.en n = true

def inCode : List Rec → Bool
  | .body _ :: _ | .lk _ _ :: _ | .cs _ _ :: _ => true
  | _ => false

inductive Act where
  | irq (t : Nat)
  /-- call of `lock` -/
  | lock (r : Nat)
  | userCs
  /-- one iteration of one of the loops over the chunks, or the end of the loop; entry of the critical section -/
  | acc
  /-- the closure returned -/
  | unlock
  /-- the task calls `NVIC::mask(n)` (a safe function of the `cortex-m` crate: `icer[n / 32].write(1 << (n % 32))`) -/
  | nvicMask (n : Nat)
  /-- the handler returns -/
  | ret

/-- the register update of one loop iteration: only if the chunk of the mask is not zero -/
def guardUpd (cond : BitVec 32) (f : Regs) (i : Nat) (v : BitVec 32) : Regs := if cond ≠ 0#32 then upd f i v else f

inductive Step (c : Cfg) (s : St) : Act → St → Prop
  | irq (t cur) (h : top s.stack = some cur) (ha : admits c s cur t) : Step c s (.irq t) { s with stack := .body t :: s.stack }
  /-- `lock`, `cortex_source_mask.rs:126-131` -/
  | lockCs (t r) (h : top s.stack = some t) (hc : inCode s.stack = true) (hu : c.uses t r) (hr : c.ceil r ≥ 4) :
      Step c s (.lock r) { s with stack := .cs0 (some r) s.pm :: s.stack }
  /-- `lock`, `cortex_source_mask.rs:134-135` -/
  | lock (t r) (h : top s.stack = some t) (hc : inCode s.stack = true) (hu : c.uses t r) (hr : ¬ c.ceil r ≥ 4) :
      Step c s (.lock r) { s with stack := .rd r 0 (fun _ => 0#32) :: s.stack }
  | userCs (hc : inCode s.stack = true) : Step c s .userCs { s with stack := .cs0 none s.pm :: s.stack }
  /-- `out.0[i] = iser[i].read()` -/
  | rd (r i old rest) (h : s.stack = .rd r i old :: rest) (hi : i < nChunks c.irqs) :
      Step c s .acc { s with stack := .rd r (i + 1) (guardUpd (c.m r i) old i (s.en i)) :: rest }
  | rdEnd (r i old rest) (h : s.stack = .rd r i old :: rest) (hi : ¬ i < nChunks c.irqs) : Step c s .acc { s with stack := .cl r 0 old :: rest }
  /-- `icer[i].write(mask.0[i])` -/
  | cl (r i old rest) (h : s.stack = .cl r i old :: rest) (hi : i < nChunks c.irqs) :
      Step c s .acc { s with stack := .cl r (i + 1) old :: rest, en := guardUpd (c.m r i) s.en i (s.en i &&& ~~~(c.m r i)) }
  | clEnd (r i old rest) (h : s.stack = .cl r i old :: rest) (hi : ¬ i < nChunks c.irqs) : Step c s .acc { s with stack := .lk r old :: rest }
  | unlock (r old rest) (h : s.stack = .lk r old :: rest) : Step c s .unlock { s with stack := .st r 0 old :: rest }
  /-- `iser[i].write(old_mask.0[i])` -/
  | st (r i old rest) (h : s.stack = .st r i old :: rest) (hi : i < nChunks c.irqs) :
      Step c s .acc { s with stack := .st r (i + 1) old :: rest, en := guardUpd (c.m r i) s.en i (s.en i ||| old i) }
  | stEnd (r i old rest) (h : s.stack = .st r i old :: rest) (hi : ¬ i < nChunks c.irqs) : Step c s .acc { s with stack := rest }
  | raiseCs (r m rest) (h : s.stack = .cs0 r m :: rest) : Step c s .acc { s with stack := .cs r m :: rest, pm := true }
  | unlockCs (r m rest) (h : s.stack = .cs r m :: rest) : Step c s .unlock { s with stack := rest, pm := m }
  | nvicMask (n) (hc : inCode s.stack = true) : Step c s (.nvicMask n) { s with en := upd s.en (n / 32) (s.en (n / 32) &&& ~~~(1#32 <<< (n % 32))) }
  | ret (t rest) (h : s.stack = .body t :: rest) (hne : rest ≠ []) : Step c s .ret { s with stack := rest }

/-- After `init`: idle runs; `en0` are the interrupts enabled by `pre_init` (`bindings/cortex.rs:239`) and by the application. -/
def start (idle : Nat) (en0 : Regs) : St := { stack := [.body idle], en := en0, pm := false }

inductive Exec (c : Cfg) : St → List Act → St → Prop
  | nil (s) : Exec c s [] s
  | snoc {s s1 s2 as a} (h : Exec c s as s1) (hs : Step c s1 a s2) : Exec c s (as ++ [a]) s2

end Verif.SourceMask
