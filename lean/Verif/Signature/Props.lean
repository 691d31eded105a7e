import Verif.Signature.App

/-! # C97: which functions are accepted as tasks, `init` and `idle` -/

namespace Verif.Signature
open Verif.Analysis (Ident TaskArg Res Err err PSt Item Target Valid ItemsValid)

/-! ## single functions -/

/-- **C97** A function (of the module or of an `extern` block) is accepted as a software task if and only if it is an `async fn` whose first argument is its context, returning nothing or `!`. -/
theorem C97_software_signature (ext : Bool) (f : Fn) : (∃ d, parseSoftware ext f = some d) ↔ SoftwareForm ext f := software_iff

/-- **C97** Likewise for hardware tasks, -/
theorem C97_hardware_signature (ext : Bool) (f : Fn) : (∃ d, parseHardware ext f = some d) ↔ HardwareForm f := hardware_iff

/-- **C97** `idle`, -/
theorem C97_idle_signature (ext : Bool) (f : Fn) : (∃ d, parseIdle ext f = some d) ↔ IdleForm f := idle_iff

/-- **C97** and `init`: the types it returns are taken as the structs of the resources. -/
theorem C97_init_signature (ext : Bool) (f : Fn) (us ul : Ident) : (∃ d, parseInit ext f = some (d, us, ul)) ↔ InitForm f us ul := init_iff

/-! ## the module -/

/-- **C97** A module is accepted if and only if it consists of items that follow the rules of C84, functions of `extern` blocks counting as functions of the module, and signatures having their form. -/
theorem C97_module_accepted_iff (code : Ty → Analysis.Ty) (tg : Target) (bits : Nat) (ds : List Ident) (items : List SItem) :
    (∃ r, expandApp code tg bits ds items = .ok r) ↔ ∃ is, Reads code items is ∧ Valid tg bits { dispatchers := ds, items := is } := by
  constructor
  · rintro ⟨⟨p, defs⟩, h⟩
    obtain ⟨is, h1, h2⟩ := expandApp_iff.mp ⟨defs, h⟩
    exact ⟨is, h1, (Analysis.C84_accepted_iff tg bits _).mp ⟨p, h2⟩⟩
  · rintro ⟨is, h1, h2⟩
    obtain ⟨p, hp⟩ := (Analysis.C84_accepted_iff tg bits _).mpr h2
    obtain ⟨defs, h⟩ := expandApp_iff.mpr ⟨is, h1, hp⟩
    exact ⟨(p, defs), h⟩

/-- **C97** The code generated for a module is that for the items it consists of: everything proved of `expand` (C40-C45, C61, C62, ...) holds for it. -/
theorem C97_module_code (code : Ty → Analysis.Ty) (tg : Target) (bits : Nat) (ds : List Ident) (items : List SItem) (p : Analysis.Program) :
    (∃ defs, expandApp code tg bits ds items = .ok (p, defs)) ↔ ∃ is, Reads code items is ∧ Analysis.expand tg bits { dispatchers := ds, items := is } = .ok p := expandApp_iff

/-! ## `extern` blocks -/

theorem reads_append {code : Ty → Analysis.Ty} {l1 l2 : List SItem} {is : List Item} : Reads code (l1 ++ l2) is ↔ ∃ a b, Reads code l1 a ∧ Reads code l2 b ∧ is = a ++ b := by
  induction l1 generalizing is with
  | nil =>
    constructor
    · intro h; exact ⟨[], is, .nil, h, rfl⟩
    · rintro ⟨a, b, h1, h2, rfl⟩; cases h1; exact h2
  | cons x l1 ih =>
    constructor
    · intro h
      cases h with
      | cons h1 h2 =>
        obtain ⟨a, b, h3, h4, rfl⟩ := ih.mp h2
        exact ⟨_, b, .cons h1 h3, h4, by rw [List.append_assoc]⟩
    · rintro ⟨a, b, h1, h2, rfl⟩
      cases h1 with
      | cons h3 h4 =>
        rw [List.append_assoc]
        exact .cons h3 (ih.mpr ⟨_, _, h4, h2, rfl⟩)

theorem software_of_extern {ext : Bool} {f : Fn} (h : SoftwareForm ext f) : SoftwareForm false f := by
  obtain ⟨h1, h2, ⟨c, args, rest, h3, h4, h5⟩, h6, h7⟩ := h
  exact ⟨h1, h2, ⟨c, args, rest, h3, h4, by intro hh; cases hh⟩, h6, h7⟩

/-- a function with a good signature is the same item outside of the `extern` block -/
theorem readsFn_module {code : Ty → Analysis.Ty} {f : Fn} {i : Item} (h : ReadsFn code true f i) (hok : ∀ t args as ins ok, i = .task t args as ins ok → ok = true) : ReadsFn code false f i := by
  cases h with
  | init a b => exact .init a b
  | idle a b c => exact .idle a b c
  | hardware a b c d e g k => exact .hardware a b c (by intro hh; cases hh) e g k
  | software a b c d e g k =>
    have ht := hok _ _ _ _ _ rfl
    exact .software a b c (by intro hh; cases hh) e (iff_of_true ht (software_of_extern (g.mp ht))) k
  | other a => cases a

theorem reads_module {code : Ty → Analysis.Ty} {fs : List Fn} {is : List Item} (h : ReadsForeign code (fs.map .fn) is) (hok : ∀ t args as ins ok, .task t args as ins ok ∈ is → ok = true) :
    Reads code (fs.map .fn) is := by
  induction fs generalizing is with
  | nil => cases h; exact .nil
  | cons f fs ih =>
    cases h with
    | @cons _ _ i is h1 h2 =>
      have h3 := readsFn_module h1 (fun t args as ins ok e => hok t args as ins ok (e ▸ List.mem_cons_self))
      exact Reads.cons (a := [i]) (.fn h3) (ih h2 fun t args as ins ok hm => hok t args as ins ok (List.mem_cons_of_mem _ hm))

/-- **C97** The functions of an `extern` block are treated like functions of the module: without the block around them the same code is generated. -/
theorem C97_extern_as_module {code : Ty → Analysis.Ty} {tg : Target} {bits : Nat} {ds : List Ident} {pre post : List SItem} {abi : Abi} {fs : List Fn} {p : Analysis.Program} {defs : List Def}
    (h : expandApp code tg bits ds (pre ++ [.foreign abi (fs.map .fn)] ++ post) = .ok (p, defs)) :
    ∃ defs', expandApp code tg bits ds (pre ++ fs.map .fn ++ post) = .ok (p, defs') := by
  obtain ⟨is, hr, he⟩ := expandApp_iff.mp ⟨defs, h⟩
  refine expandApp_iff.mpr ⟨is, ?_, he⟩
  have hv := ((Analysis.C84_accepted_iff tg bits _).mp ⟨p, he⟩).items
  obtain ⟨ab, c, hab, hc, rfl⟩ := reads_append.mp hr
  obtain ⟨a, b, ha, hb, rfl⟩ := reads_append.mp hab
  refine reads_append.mpr ⟨_, c, reads_append.mpr ⟨a, b, ha, ?_, rfl⟩, hc, rfl⟩
  cases hb with
  | @cons _ _ x y hx hy =>
    cases hy
    cases hx with
    | foreign _ hf =>
      rw [List.append_nil] at *
      exact reads_module hf fun t args as ins ok hm => (hv.task t args as ins ok (by simp [hm])).1

/-- function `f` is in an `extern` block of the module -/
def InExtern (items : List SItem) (f : Fn) : Prop := ∃ abi fs, .foreign abi fs ∈ items ∧ .fn f ∈ fs

theorem mem_reads {code : Ty → Analysis.Ty} {l : List SItem} {is : List Item} (h : Reads code l is) {x : SItem} (hx : x ∈ l) : ∃ a, ReadsItem code x a ∧ ∀ i ∈ a, i ∈ is := by
  induction h with
  | nil => cases hx
  | @cons s ss a b h1 h2 ih =>
    rcases List.mem_cons.mp hx with e | hx'
    · subst e; exact ⟨a, h1, fun i hi => List.mem_append_left _ hi⟩
    · obtain ⟨c, hc, hm⟩ := ih hx'
      exact ⟨c, hc, fun i hi => List.mem_append_right _ (hm i hi)⟩

theorem mem_foreign {code : Ty → Analysis.Ty} {l : List FItem} {is : List Item} (h : ReadsForeign code l is) {f : Fn} (hf : .fn f ∈ l) : ∃ i, ReadsFn code true f i ∧ i ∈ is := by
  induction h with
  | nil => cases hf
  | @cons g fs i is h1 h2 ih =>
    rcases List.mem_cons.mp hf with e | hx'
    · cases e; exact ⟨i, h1, List.mem_cons_self⟩
    · obtain ⟨c, hc, hm⟩ := ih hx'
      exact ⟨c, hc, List.mem_cons_of_mem _ hm⟩

/-- **C97** In an accepted module no software task of an `extern` block that returns has a `'static` context: its context has no lifetime argument or one other than `'static`. -/
theorem C97_extern_returning_not_static {code : Ty → Analysis.Ty} {tg : Target} {bits : Nat} {ds : List Ident} {items : List SItem} {r : Analysis.Program × List Def}
    (h : expandApp code tg bits ds items = .ok r) {f : Fn} (hf : InExtern items f) (hi : Unmarked f.attrs Kw.init) (hid : Unmarked f.attrs Kw.idle) (hd : ¬ Diverges f.output)
    (hsw : ∀ args b, Marked f.attrs Kw.task args → .binds b ∉ args) :
    ∃ c args rest, f.inputs = c :: rest ∧ ContextArg f.name args c ∧ args ≠ .angle [.lifetime Kw.static] ∧ NotStatic args := by
  obtain ⟨is, hr, hv⟩ := (C97_module_accepted_iff code tg bits ds items).mp ⟨r, h⟩
  obtain ⟨abi, fs, h1, h2⟩ := hf
  obtain ⟨a, ha, hm⟩ := mem_reads hr h1
  cases ha with
  | foreign _ hfs =>
    obtain ⟨i, hfi, hmi⟩ := mem_foreign hfs h2
    have hin := hm i hmi
    cases hfi with
    | init a b =>
      obtain ⟨pre, x, post, e, ex, -⟩ := a
      exact absurd ex (hi x (by rw [e]; simp))
    | idle a b c =>
      obtain ⟨pre, x, post, e, ex, -⟩ := b
      exact absurd ex (hid x (by rw [e]; simp))
    | @hardware args ok ins b _ _ hm _ hb _ _ => exact absurd hb (hsw _ b hm)
    | software _ _ _ _ _ hform _ =>
      have hok := (hv.items.task _ _ _ _ _ hin).1
      obtain ⟨c, args, rest, e, hc, hns⟩ := (hform.mp hok).inputs
      have := hns rfl hd
      refine ⟨c, args, rest, e, hc, fun e => ?_, this⟩
      subst e
      rcases this with h | h | ⟨n, hn, h⟩
      · cases h
      · simp at h
      · simp only [PArgs.angle.injEq, List.cons.injEq, GArg.lifetime.injEq, and_true] at h
        exact hn h.symm
    | other a => cases a

/-! ## a concrete module -/

/-- `_: name::Context args` -/
def cx (name : Ident) (args : PArgs := .none) : FnArg := .typed 0 (.path false { segs := [{ ident := name }, { ident := Kw.context, args := args }] })
/-- `#[name(..)]` -/
def at_ (name : Ident) (args : List TaskArg := []) : Attr := { path := { segs := [{ ident := name }] }, args := if args.isEmpty then none else some args }
def named (name : Ident) : Ty := .path false { segs := [{ ident := name }] }

/-- The module of `examples/lm3s6965/examples/static-exec.rs`, with a shared lock-free resource, a hardware task and a function of the user added: `Shared` = 20, `Local` = 21, tasks 30-34, `with_args` = 31, interrupts 50-52. -/
def exItems (ctx : PArgs) : List SItem := [
  .other,
  .struct [at_ Kw.shared] 20 (some [{ name := 40, ty := named 100, attrs := [at_ Kw.lockFree] }, { name := 41, ty := named 101 }]),
  .struct [at_ Kw.locals] 21 (some []),
  .fn { attrs := [at_ Kw.init], name := Kw.init, inputs := [cx Kw.init], output := .type (.tuple [named 20, named 21]) },
  .fn { attrs := [at_ Kw.task [.priority 2]], name := 30, isAsync := true, inputs := [cx 30] },
  .fn { attrs := [at_ Kw.doc, at_ Kw.task], name := 31, isAsync := true, inputs := [cx 31, .typed 1 (named 102), .typed 2 (named 103)] },
  .fn { attrs := [at_ Kw.task [.binds 52, .shared [(40, .exclusive)]]], name := 34, inputs := [cx 34] },
  .fn { attrs := [], name := 60, isPub := true, inputs := [.receiver], generics := 2 },
  .foreign { name := some Kw.rust } [
    .fn { attrs := [at_ Kw.task], name := 32, isAsync := true, inputs := [cx 32 ctx] },
    .fn { attrs := [at_ Kw.task], name := 33, isAsync := true, inputs := [cx 33 (.angle [.lifetime Kw.static])], output := .type .never }]]

def exCode : Ty → Nat
  | .path _ p => (p.segs.map Seg.ident).headD 0
  | _ => 0
def exTg : Target := { isException := fun _ => false, isFixed := fun _ => false }

/-- summary of the result -/
def spawnable (r : Res (Analysis.Program × List Def)) : Option (List Ident × List (Ident × Bool × Bool)) :=
  match r with
  | .ok (p, defs) => some (p.freeSpawn, defs.map fun d => (d.name, d.isExtern, d.isBottom))
  | .error _ => none

/-- it is accepted with `'_`, -/
example : spawnable (expandApp exCode exTg 4 [50, 51] (exItems (.angle [.lifetime Kw.underscore]))) =
    some ([30, 31, 32, 33], [(Kw.init, false, false), (30, false, false), (31, false, false), (34, false, false), (32, true, false), (33, true, true)]) := by decide +kernel
/-- and refused with `'static`, as in `ui/extern-non-diverging-no-static-ctx.rs` -/
example : spawnable (expandApp exCode exTg 4 [50, 51] (exItems (.angle [.lifetime Kw.static]))) = none := by decide +kernel
/-- `ui/task-pub.rs`, `ui/task-unsafe.rs`, `ui/task-no-context.rs`, `ui/idle-not-divergent.rs`, `ui/idle-input.rs`, `ui/init-output.rs`: -/
def exTask : Fn := { attrs := [], name := 30, isAsync := true, inputs := [cx 30] }
example : (parseSoftware false exTask).isSome = true ∧ (parseSoftware false { exTask with isPub := true }).isSome = false ∧ (parseSoftware false { exTask with isUnsafe := true }).isSome = false ∧
    (parseSoftware false { exTask with inputs := [] }).isSome = false ∧ (parseSoftware false { exTask with inputs := [cx 31] }).isSome = false ∧ (parseSoftware false { exTask with isAsync := false }).isSome = false ∧
    (parseSoftware false { exTask with output := .type (named 7) }).isSome = false := by decide +kernel
def exIdle : Fn := { attrs := [], name := 30, inputs := [cx 30], output := .type .never }
example : (parseIdle false exIdle).isSome = true ∧ (parseIdle false { exIdle with output := .default }).isSome = false ∧ (parseIdle false { exIdle with inputs := [cx 30, .typed 1 (named 7)] }).isSome = false ∧
    (parseHardware false exIdle).isSome = false ∧ (parseHardware false { exIdle with output := .default }).isSome = true ∧ (parseHardware false { exIdle with output := .default, isAsync := true }).isSome = false := by decide +kernel
def exInit : Fn := { attrs := [], name := 30, inputs := [cx 30], output := .type (.tuple [named 20, named 21]) }
example : (parseInit false exInit).isSome = true ∧ (parseInit false { exInit with output := .default }).isSome = false ∧ (parseInit false { exInit with output := .type .never }).isSome = false ∧
    (parseInit false { exInit with output := .type (.tuple [named 20]) }).isSome = false ∧ (parseInit false { exInit with inputs := [] }).isSome = false := by decide +kernel

/-- the hypotheses of `C97_extern_returning_not_static` and of `C97_extern_as_module` are met by it -/
example : InExtern (exItems .none) { attrs := [at_ Kw.task], name := 32, isAsync := true, inputs := [cx 32 .none] } := ⟨_, _, .tail _ (.tail _ (.tail _ (.tail _ (.tail _ (.tail _ (.tail _ (.tail _ (.head _)))))))), .head _⟩
example : ∃ r, expandApp exCode exTg 4 [50, 51] (exItems .none) = .ok r := by
  have h : spawnable (expandApp exCode exTg 4 [50, 51] (exItems .none)) ≠ none := by decide +kernel
  cases hr : expandApp exCode exTg 4 [50, 51] (exItems .none) with
  | ok r => exact ⟨r, rfl⟩
  | error e => rw [hr] at h; exact absurd rfl h

end Verif.Signature
