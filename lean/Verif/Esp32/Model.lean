/-!
# Resource locking with the interrupt threshold of ESP32-C3 and ESP32-C6

Model of `rtic/src/export/riscv_esp32c3.rs` (`run`, `lock`; `riscv_esp32c6.rs:8-34,55-78` differs only in register names) and of the interrupt controller: an interrupt of priority `p` is taken if interrupts are enabled (MIE) and `p` is at least
the threshold ("esp32c3 lets interrupts with prio equal to threshold through", `riscv_esp32c3.rs:67`).

Trusted and not in the repository: the trap entry of the runtime (`esp-riscv-rt` / `esp-hal`), which with interrupts disabled remembers the threshold, sets it to the priority of the handler plus one, enables interrupts and calls the handler, and restores the
threshold on exit. It is modelled by the steps `irq` and `ret`.

As in `Verif.Srp` the running task may, in every state, lock any resource it uses, enter a critical section, release its innermost lock, or return.
-/

namespace Verif.Esp32

structure Cfg where
  prio : Nat → Nat
  uses : Nat → Nat → Prop
  /-- `const CEILING`, `rtic-macros/src/codegen/bindings/esp32c3.rs:41` -/
  ceil : Nat → Nat

inductive Rec where
  /-- handler of `t` entered; the runtime remembers `prev` -/
  | enter (t prev : Nat)
  /-- body runs; `run` remembers `initial` (`riscv_esp32c3.rs:20-25`), `none` for priority 1 (`:11-13`) and idle -/
  | body (t prev : Nat) (initial : Option Nat)
  /-- threshold written by `run`, `riscv_esp32c3.rs:15-17,28-30` -/
  | leave (t prev : Nat)
  /-- in `lock`: `current` read, `riscv_esp32c3.rs:58-62` -/
  | lk0 (r current : Nat)
  /-- in `lock`: threshold written, closure runs, `riscv_esp32c3.rs:68` -/
  | lk (r current : Nat)
  /-- critical section, state read; `none`: of the application itself -/
  | cs0 (r : Option Nat) (was : Bool)
  | cs (r : Option Nat) (was : Bool)
deriving DecidableEq, Repr

structure St where
  stack : List Rec
  /-- `cpu_int_thresh` / `mxint_thresh` -/
  thr : Nat
  /-- interrupts disabled -/
  off : Bool

def top : List Rec → Option Nat
  | [] => none
  | .enter t _ :: _ | .body t _ _ :: _ | .leave t _ :: _ => some t
  | _ :: rest => top rest

def inCode : List Rec → Bool
  | .body _ _ _ :: _ | .lk _ _ :: _ | .cs _ _ :: _ => true
  | _ => false

inductive Act where
  | irq (t : Nat) | readInitial | lock (r : Nat) | userCs | raise | unlock | finish | ret
deriving DecidableEq, Repr

inductive Step (c : Cfg) (s : St) : Act → St → Prop
  /-- hardware and runtime: taken if the priority is at least the threshold -/
  | irq (t) (hp : 1 ≤ c.prio t) (ho : s.off = false) (ha : s.thr ≤ c.prio t) :
      Step c s (.irq t) { s with stack := .enter t s.thr :: s.stack, thr := c.prio t + 1 }
  /-- `run`, `riscv_esp32c3.rs:11-24` -/
  | readInitial (t prev rest) (h : s.stack = .enter t prev :: rest) :
      Step c s .readInitial { s with stack := .body t prev (if c.prio t = 1 then none else some s.thr) :: rest }
  /-- `lock` with ceiling 15, `riscv_esp32c3.rs:54-56` -/
  | lockCs (t r) (h : top s.stack = some t) (hc : inCode s.stack = true) (hu : c.uses t r) (hr : c.ceil r = 15) :
      Step c s (.lock r) { s with stack := .cs0 (some r) s.off :: s.stack }
  /-- `lock`, `riscv_esp32c3.rs:58-62` -/
  | lock (t r) (h : top s.stack = some t) (hc : inCode s.stack = true) (hu : c.uses t r) (hr : c.ceil r ≠ 15) :
      Step c s (.lock r) { s with stack := .lk0 r s.thr :: s.stack }
  | userCs (hc : inCode s.stack = true) : Step c s .userCs { s with stack := .cs0 none s.off :: s.stack }
  /-- `cpu_int_thresh().write(ceiling + 1)`, `riscv_esp32c3.rs:64-66`: whatever the threshold was -/
  | raise (r cur rest) (h : s.stack = .lk0 r cur :: rest) : Step c s .raise { s with stack := .lk r cur :: rest, thr := c.ceil r + 1 }
  | raiseCs (r m rest) (h : s.stack = .cs0 r m :: rest) : Step c s .raise { s with stack := .cs r m :: rest, off := true }
  /-- `riscv_esp32c3.rs:70-72` -/
  | unlock (r cur rest) (h : s.stack = .lk r cur :: rest) : Step c s .unlock { s with stack := rest, thr := cur }
  | unlockCs (r m rest) (h : s.stack = .cs r m :: rest) : Step c s .unlock { s with stack := rest, off := m }
  /-- `riscv_esp32c3.rs:15-17`: priority 1 writes 1 -/
  | finish1 (t prev rest) (h : s.stack = .body t prev none :: rest) (hp : 1 ≤ c.prio t) : Step c s .finish { s with stack := .leave t prev :: rest, thr := 1 }
  /-- `riscv_esp32c3.rs:28-30` -/
  | finish (t prev i rest) (h : s.stack = .body t prev (some i) :: rest) : Step c s .finish { s with stack := .leave t prev :: rest, thr := i }
  /-- runtime: restore the threshold, return from the trap -/
  | ret (t prev rest) (h : s.stack = .leave t prev :: rest) : Step c s .ret { s with stack := rest, thr := prev }

/-- idle runs; `thr0` is the threshold set up by the startup code (0 or 1: nothing masked) -/
def start (idle thr0 : Nat) : St := { stack := [.body idle 0 none], thr := thr0, off := false }

inductive Exec (c : Cfg) : St → List Act → St → Prop
  | nil (s) : Exec c s [] s
  | snoc {s s1 s2 as a} (h : Exec c s as s1) (hs : Step c s1 a s2) : Exec c s (as ++ [a]) s2

end Verif.Esp32
