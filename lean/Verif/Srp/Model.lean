/-!
# Resource locking with BASEPRI

Model of `rtic/src/export/cortex_basepri.rs` (`run`, `lock`), `rtic/src/export/cortex_common.rs` (`cortex_logical2hw`) and of the Cortex-M interrupt controller:
one core, one stack, nested interrupts.

A *task* here is an interrupt handler or the idle context: a hardware task, or a dispatcher together with the software tasks it polls (these run one after the other in the
same handler; a lock closure is synchronous code, so no other task of the same dispatcher runs inside it). What a task does besides locking is not modelled: in every
state the running task may lock any resource it uses, release its innermost lock, or return if it holds none. Every handler whose priority the hardware admits may start at any moment
(all interrupts may be pending at any time; in reality a pending subset).
-/

namespace Verif.Srp

/-- `a << n` for `u8`. If `n ≥ 8`: a panic if the code is compiled with overflow checks (`checks`), else only the lowest 3 bits of `n` count. -/
def shlU8 (checks : Bool) (a n : BitVec 8) : Option (BitVec 8) :=
  if n.toNat < 8 then some (a <<< n.toNat) else if checks then none else some (a <<< (n.toNat % 8))

/-- `a - b` for `u8`. If `a < b`: a panic if the code is compiled with overflow checks, else the result is taken modulo 256. -/
def subU8 (checks : Bool) (a b : BitVec 8) : Option (BitVec 8) :=
  if b.toNat ≤ a.toNat then some (a - b) else if checks then none else some (a - b)

/-- `cortex_logical2hw`, `rtic/src/export/cortex_common.rs:5-7` (and its copy `rtic-monotonics/src/lib.rs:113-115`): `((1 << nvic_prio_bits) - logical) << (8 - nvic_prio_bits)`; `none`: panic. -/
def cortexLogical2hw (checks : Bool) (logical bits : BitVec 8) : Option (BitVec 8) :=
  (shlU8 checks 1#8 bits).bind fun x => (subU8 checks x logical).bind fun y => (subU8 checks 8#8 bits).bind fun k => shlU8 checks y k

/-- `cortexLogical2hw` for 1 to 7 priority bits, for which nothing overflows (`rust_logical2hw`) -/
def logical2hw (logical bits : BitVec 8) : BitVec 8 :=
  ((1#8 <<< bits.toNat) - logical) <<< (8#8 - bits).toNat

/-- the same on numbers, as used by the machine below -/
def hw (bits p : Nat) : Nat := (logical2hw (BitVec.ofNat 8 p) (BitVec.ofNat 8 bits)).toNat

/-- An application: priorities of tasks, resources used by each task, ceiling passed to `lock` for each resource
(`const CEILING`, `rtic-macros/src/codegen/bindings/cortex.rs:165`), `NVIC_PRIO_BITS`. -/
structure Cfg where
  bits : Nat
  prio : Nat → Nat
  uses : Nat → Nat → Prop
  ceil : Nat → Nat

/-- What is on the stack of the processor. -/
inductive Rec where
  /-- handler of task `t` has been entered, `run` has not read BASEPRI yet, `cortex_basepri.rs:20` -/
  | enter (t : Nat)
  /-- the body of task `t` runs; `run` remembers `initial` (`cortex_basepri.rs:16-21`); `none` for priority 1 and idle -/
  | body (t : Nat) (initial : Option Nat)
  /-- the body returned and BASEPRI has been restored, `cortex_basepri.rs:18,22` -/
  | leave (t : Nat)
  /-- in `lock`: `current` has been read, `cortex_basepri.rs:71` -/
  | lk0 (r current : Nat)
  /-- in `lock`: BASEPRI raised, closure runs, `cortex_basepri.rs:73` -/
  | lk (r current : Nat)
  /-- in `critical_section::with`: the interrupt state was read, `cortex_basepri.rs:69` (`none`: a critical section of the application itself) -/
  | cs0 (r : Option Nat) (wasMasked : Bool)
  /-- in `critical_section::with`: interrupts disabled, closure runs -/
  | cs (r : Option Nat) (wasMasked : Bool)
deriving DecidableEq, Repr

structure St where
  /-- innermost first -/
  stack : List Rec
  /-- BASEPRI register -/
  bp : Nat
  /-- PRIMASK: all interrupts disabled -/
  pm : Bool

/-- task running on top of a stack -/
def top : List Rec → Option Nat
  | [] => none
  | .enter t :: _ | .body t _ :: _ | .leave t :: _ => some t
  | _ :: rest => top rest

inductive Act where
  /-- the hardware starts the handler of task `t` -/
  | irq (t : Nat)
  /-- `run` reads BASEPRI -/
  | readInitial
  /-- the running task calls `lock` on resource `r` (first access of `lock`) -/
  | lock (r : Nat)
  /-- the running task enters a critical section of its own (`critical_section::with`) -/
  | userCs
  /-- second access of `lock` / `critical_section::with`: raise -/
  | raise
  /-- closure returned: restore -/
  | unlock
  /-- the body returned: `run` restores BASEPRI -/
  | finish
  /-- exception return -/
  | ret
deriving DecidableEq, Repr

/-- `basepri_max::write`, used in `cortex_basepri.rs:72`: the write only takes effect if it raises the masking (ARMv7-M ARM B1.4.3). -/
def basepriMax (bp v : Nat) : Nat := if v ≠ 0 ∧ (bp = 0 ∨ v < bp) then v else bp

/-- Does the hardware admit an interrupt of logical priority `p` while `cur` (logical) is executing? Lower hardware numbers are more urgent; thread mode (logical 0, idle) can be
interrupted by every priority; BASEPRI = 0 masks nothing. -/
def admits (bits bp : Nat) (pm : Bool) (cur p : Nat) : Prop :=
  pm = false ∧ (cur = 0 ∨ hw bits p < hw bits cur) ∧ (bp = 0 ∨ hw bits p < bp)

instance (bits bp : Nat) (pm : Bool) (cur p : Nat) : Decidable (admits bits bp pm cur p) := by unfold admits; infer_instance

/-- is the top record a place where the task's own code runs -/
def inCode : List Rec → Bool
  | .body _ _ :: _ | .lk _ _ :: _ | .cs _ _ :: _ => true
  | _ => false

inductive Step (c : Cfg) (s : St) : Act → St → Prop
  | irq (t cur) (h : top s.stack = some cur) (hp : 1 ≤ c.prio t) (ha : admits c.bits s.bp s.pm (c.prio cur) (c.prio t)) :
      Step c s (.irq t) { s with stack := .enter t :: s.stack }
  /-- `run`: `if priority == 1 { f(); .. } else { let initial = basepri::read(); .. }`, `cortex_basepri.rs:15-21` -/
  | readInitial (t rest) (h : s.stack = .enter t :: rest) :
      Step c s .readInitial { s with stack := .body t (if c.prio t = 1 then none else some s.bp) :: rest }
  /-- `lock`, `cortex_basepri.rs:68-71`: ceiling `1 << bits` → `critical_section::with`; else read BASEPRI -/
  | lockCs (t r) (h : top s.stack = some t) (hc : inCode s.stack = true) (hu : c.uses t r) (hr : c.ceil r = 2 ^ c.bits) :
      Step c s (.lock r) { s with stack := .cs0 (some r) s.pm :: s.stack }
  | lock (t r) (h : top s.stack = some t) (hc : inCode s.stack = true) (hu : c.uses t r) (hr : c.ceil r ≠ 2 ^ c.bits) :
      Step c s (.lock r) { s with stack := .lk0 r s.bp :: s.stack }
  | userCs (hc : inCode s.stack = true) : Step c s .userCs { s with stack := .cs0 none s.pm :: s.stack }
  /-- `basepri_max::write(cortex_logical2hw(ceiling, nvic_prio_bits))`, `cortex_basepri.rs:72` -/
  | raise (r cur rest) (h : s.stack = .lk0 r cur :: rest) :
      Step c s .raise { s with stack := .lk r cur :: rest, bp := basepriMax s.bp (hw c.bits (c.ceil r)) }
  /-- `critical_section::acquire` disables interrupts -/
  | raiseCs (r m rest) (h : s.stack = .cs0 r m :: rest) : Step c s .raise { s with stack := .cs r m :: rest, pm := true }
  /-- `basepri::write(current)`, `cortex_basepri.rs:74` -/
  | unlock (r cur rest) (h : s.stack = .lk r cur :: rest) : Step c s .unlock { s with stack := rest, bp := cur }
  /-- `critical_section::release` re-enables interrupts if they were enabled before -/
  | unlockCs (r m rest) (h : s.stack = .cs r m :: rest) : Step c s .unlock { s with stack := rest, pm := m }
  /-- end of `run`, `cortex_basepri.rs:18`: priority 1 writes 0 -/
  | finish1 (t rest) (h : s.stack = .body t none :: rest) (hp : 1 ≤ c.prio t) : Step c s .finish { s with stack := .leave t :: rest, bp := 0 }
  /-- end of `run`, `cortex_basepri.rs:22` -/
  | finish (t i rest) (h : s.stack = .body t (some i) :: rest) : Step c s .finish { s with stack := .leave t :: rest, bp := i }
  | ret (t rest) (h : s.stack = .leave t :: rest) : Step c s .ret { s with stack := rest }

/-- After `init`: idle runs (task `idle`, priority 0), nothing is masked (`post_init` enabled interrupts). -/
def start (idle : Nat) : St := { stack := [.body idle none], bp := 0, pm := false }

/-- Executions. -/
inductive Exec (c : Cfg) : St → List Act → St → Prop
  | nil (s) : Exec c s [] s
  | snoc {s s1 s2 as a} (h : Exec c s as s1) (hs : Step c s1 a s2) : Exec c s (as ++ [a]) s2

end Verif.Srp
