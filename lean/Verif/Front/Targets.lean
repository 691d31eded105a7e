import Verif.Front.Props
import Verif.Analysis.AcceptProps

/-!
# C102 on ESP32-C3, ESP32-C6 and RISC-V SLIC
-/

namespace Verif.Front
open Verif.Analysis (Ident Res Err Item Chip EspProgram SlicProgram ValidEsp ValidSlic TaskIs bind_ok bind_eq)
open Verif.Signature (Path Ty Def)
open Verif.Grammar (Syn Tok CommaList AppItem AppMeans AppArgs)

/-- `#[app(..)]` for ESP32, `lib.rs:33-52` with `codegen/bindings/esp32c3.rs`, `esp32c6.rs`: the semantic content of the code, the arguments, what is kept of the functions -/
def expandAppEsp (syn : Syn) (code : Ty → Analysis.Ty) (chip : Chip) (fromCpu : Ident → Bool) (args : List Tok) (items : List TItem) : Res (EspProgram × AppArgs × List Def) := do
  let (a, app, defs) ← parseApp syn false code args items
  let p ← Analysis.backEsp chip fromCpu app
  pure (p, a, defs)

/-- `#[app(..)]` with SLIC, `lib.rs:33-52` with `codegen/bindings/riscv_slic.rs`. `clint` is the feature `riscv-clint` (otherwise `riscv-mecall`): only with it the argument `backend` is read
(`syntax/backend/riscv_slic.rs:14-27`), and then it is required (`riscv_slic.rs:151-157`). -/
def expandAppSlic (syn : Syn) (code : Ty → Analysis.Ty) (clint : Bool) (fresh : Nat → Ident) (args : List Tok) (items : List TItem) : Res (SlicProgram × AppArgs × List Def) := do
  let (a, app, defs) ← parseApp syn clint code args items
  let p ← Analysis.backSlic fresh (!clint || a.backend.isSome) app
  pure (p, a, defs)

section
variable {syn : Syn} {code : Ty → Analysis.Ty} {args : List Tok} {items : List TItem}

/-- parsing tokens and parsing the items they are read as -/
theorem parseApp_iff {clint : Bool} {a : AppArgs} {app : Analysis.App} :
    (∃ defs, parseApp syn clint code args items = .ok (a, app, defs)) ↔
      (∃ as, CommaList (AppItem syn clint) args as ∧ AppMeans as a) ∧ ∃ is, Reads syn code items is ∧ Analysis.parse { dispatchers := a.dispatchers.map Prod.fst, items := is } = .ok app := by
  rw [← Grammar.C100_app_arguments]
  constructor
  · rintro ⟨defs, h⟩
    obtain ⟨ha, l', hl, h⟩ := parseApp_elab.1 h
    obtain ⟨is, h3, h4⟩ := Signature.parseApp_iff.1 ⟨_, h⟩
    exact ⟨ha, is, reads_iff.2 ⟨l', hl, h3⟩, h4⟩
  · rintro ⟨ha, is, h3, h4⟩
    obtain ⟨l', hl, hr⟩ := reads_iff.1 h3
    obtain ⟨defs, h⟩ := Signature.parseApp_iff.2 ⟨is, hr, h4⟩
    exact ⟨defs, parseApp_elab.2 ⟨ha, l', hl, h⟩⟩

/-- **C102** (ESP32) The code generated for a module is that for the items it is read as, whose dispatchers are those of `#[app(..)]`: everything proved of `Analysis.expandEsp` holds for the module. -/
theorem C102_esp_code (chip : Chip) (fromCpu : Ident → Bool) (p : EspProgram) (a : AppArgs) :
    (∃ defs, expandAppEsp syn code chip fromCpu args items = .ok (p, a, defs)) ↔
      (∃ as, CommaList (AppItem syn false) args as ∧ AppMeans as a) ∧
      ∃ is, Reads syn code items is ∧ Analysis.expandEsp chip fromCpu { dispatchers := a.dispatchers.map Prod.fst, items := is } = .ok p := by
  constructor
  · rintro ⟨defs, h⟩
    obtain ⟨⟨a', app, defs'⟩, h1, h⟩ := bind_ok h
    simp only at h
    obtain ⟨p', h2, h⟩ := bind_ok h
    cases h
    obtain ⟨ha, is, h3, h4⟩ := parseApp_iff.1 ⟨_, h1⟩
    refine ⟨ha, is, h3, ?_⟩
    unfold Analysis.expandEsp
    rw [bind_eq h4]; exact h2
  · rintro ⟨ha, is, h3, h4⟩
    obtain ⟨app, h5, h6⟩ := bind_ok h4
    obtain ⟨defs, h⟩ := parseApp_iff.2 ⟨ha, is, h3, h5⟩
    refine ⟨defs, ?_⟩
    unfold expandAppEsp
    rw [bind_eq h]
    simp only
    rw [bind_eq h6]; rfl

/-- **C102** (SLIC) The code generated for a module is that for the items it is read as, with `backend` given if the board needs it: everything proved of `Analysis.expandSlic` holds for the module. -/
theorem C102_slic_code (clint : Bool) (fresh : Nat → Ident) (p : SlicProgram) (a : AppArgs) :
    (∃ defs, expandAppSlic syn code clint fresh args items = .ok (p, a, defs)) ↔
      (∃ as, CommaList (AppItem syn clint) args as ∧ AppMeans as a) ∧
      ∃ is, Reads syn code items is ∧ Analysis.expandSlic fresh (!clint || a.backend.isSome) { dispatchers := a.dispatchers.map Prod.fst, items := is } = .ok p := by
  constructor
  · rintro ⟨defs, h⟩
    obtain ⟨⟨a', app, defs'⟩, h1, h⟩ := bind_ok h
    simp only at h
    obtain ⟨p', h2, h⟩ := bind_ok h
    cases h
    obtain ⟨ha, is, h3, h4⟩ := parseApp_iff.1 ⟨_, h1⟩
    refine ⟨ha, is, h3, ?_⟩
    unfold Analysis.expandSlic
    rw [bind_eq h4]; exact h2
  · rintro ⟨ha, is, h3, h4⟩
    obtain ⟨app, h5, h6⟩ := bind_ok h4
    obtain ⟨defs, h⟩ := parseApp_iff.2 ⟨ha, is, h3, h5⟩
    refine ⟨defs, ?_⟩
    unfold expandAppSlic
    rw [bind_eq h]
    simp only
    rw [bind_eq h6]; rfl

/-- **C102** (ESP32-C3) The macro accepts a module if and only if the arguments of `#[app(..)]` are written as in the grammar, the module consists of items of the documented forms, and these follow the rules of C84 for the chip. -/
theorem C102_esp32c3_accepted_iff (fromCpu : Ident → Bool) :
    (∃ r, expandAppEsp syn code .c3 fromCpu args items = .ok r) ↔
      ∃ as a is, CommaList (AppItem syn false) args as ∧ AppMeans as a ∧ Reads syn code items is ∧ ValidEsp fromCpu { dispatchers := a.dispatchers.map Prod.fst, items := is } := by
  constructor
  · rintro ⟨⟨p, a, defs⟩, h⟩
    obtain ⟨⟨as, h1, h2⟩, is, h3, h4⟩ := (C102_esp_code _ _ _ _).1 ⟨_, h⟩
    exact ⟨as, a, is, h1, h2, h3, (Analysis.C84_esp32c3_accepted_iff _ _).1 ⟨_, h4⟩⟩
  · rintro ⟨as, a, is, h1, h2, h3, h4⟩
    obtain ⟨p, h5⟩ := (Analysis.C84_esp32c3_accepted_iff _ _).2 h4
    obtain ⟨defs, h⟩ := (C102_esp_code _ _ _ _).2 ⟨⟨as, h1, h2⟩, is, h3, h5⟩
    exact ⟨_, h⟩

/-- the dispatchers and the interrupts of hardware tasks, which are different, are at most `n` -/
def AtMost (n : Nat) (raw : Analysis.Raw) : Prop :=
  (∀ vs : List Ident, vs.Nodup → (∀ v ∈ vs, v ∈ raw.dispatchers ∨ ∃ t q args, TaskIs raw t (.hardware v) q args) → vs.length ≤ n) ∧ ∀ t v q args, TaskIs raw t (.hardware v) q args → v ∉ raw.dispatchers

/-- **C102** (ESP32-C6) Of the modules that need at most twelve interrupts, the macro accepts those whose arguments are written as in the grammar, which consist of items of the documented forms, and follow the rules of C84. (Beyond twelve: C70.) -/
theorem C102_esp32c6_accepted_iff (fromCpu : Ident → Bool) (hn : ∀ as a is, CommaList (AppItem syn false) args as → AppMeans as a → Reads syn code items is → AtMost 12 { dispatchers := a.dispatchers.map Prod.fst, items := is }) :
    (∃ r, expandAppEsp syn code .c6 fromCpu args items = .ok r) ↔
      ∃ as a is, CommaList (AppItem syn false) args as ∧ AppMeans as a ∧ Reads syn code items is ∧ ValidEsp fromCpu { dispatchers := a.dispatchers.map Prod.fst, items := is } := by
  constructor
  · rintro ⟨⟨p, a, defs⟩, h⟩
    obtain ⟨⟨as, h1, h2⟩, is, h3, h4⟩ := (C102_esp_code _ _ _ _).1 ⟨_, h⟩
    have hm := hn as a is h1 h2 h3
    exact ⟨as, a, is, h1, h2, h3, (Analysis.C84_esp32c6_accepted_iff _ _ hm.1 hm.2).1 ⟨_, h4⟩⟩
  · rintro ⟨as, a, is, h1, h2, h3, h4⟩
    have hm := hn as a is h1 h2 h3
    obtain ⟨p, h5⟩ := (Analysis.C84_esp32c6_accepted_iff _ _ hm.1 hm.2).2 h4
    obtain ⟨defs, h⟩ := (C102_esp_code _ _ _ _).2 ⟨⟨as, h1, h2⟩, is, h3, h5⟩
    exact ⟨_, h⟩

/-- **C102** (SLIC) The macro accepts a module if and only if the arguments of `#[app(..)]` are written as in the grammar, without dispatchers and, for CLINT, with `backend`; the module consists of items of the documented forms; and these follow the rules of C84. -/
theorem C102_slic_accepted_iff (clint : Bool) {fresh : Nat → Ident} (hf : ∀ i j, fresh i = fresh j → i = j) :
    (∃ r, expandAppSlic syn code clint fresh args items = .ok r) ↔
      ∃ as a is, CommaList (AppItem syn clint) args as ∧ AppMeans as a ∧ Reads syn code items is ∧ a.dispatchers = [] ∧ (clint = true → a.backend ≠ none) ∧
        Analysis.ItemsValid { dispatchers := [], items := is } ∧ Analysis.UsesValid { dispatchers := [], items := is } := by
  constructor
  · rintro ⟨⟨p, a, defs⟩, h⟩
    obtain ⟨⟨as, h1, h2⟩, is, h3, h4⟩ := (C102_slic_code _ _ _ _).1 ⟨_, h⟩
    have hv := (Analysis.C84_slic_accepted_iff hf _ _).1 ⟨_, h4⟩
    have hd : a.dispatchers = [] := List.map_eq_nil_iff.1 hv.dispatchers
    refine ⟨as, a, is, h1, h2, h3, hd, ?_, ?_, ?_⟩
    · rintro rfl e
      have hb := hv.backend
      rw [e] at hb
      cases hb
    · have := hv.items; rwa [hd] at this
    · have := hv.uses; rwa [hd] at this
  · rintro ⟨as, a, is, h1, h2, h3, hd, hb, h4, h5⟩
    have hv : ValidSlic (!clint || a.backend.isSome) { dispatchers := a.dispatchers.map Prod.fst, items := is } := by
      rw [hd]
      refine ⟨h4, h5, rfl, ?_⟩
      cases clint with
      | false => rfl
      | true =>
        cases e : a.backend with
        | none => exact absurd e (hb rfl)
        | some i => rfl
    obtain ⟨p, h6⟩ := (Analysis.C84_slic_accepted_iff hf _ _).2 hv
    obtain ⟨defs, h⟩ := (C102_slic_code _ _ _ _).2 ⟨⟨as, h1, h2⟩, is, h3, h6⟩
    exact ⟨_, h⟩

end

/-! ## Examples -/

/-- `struct Shared {}`, `struct Local {}`, `init`, and `#[task(priority = 2)] async fn t103` -/
def targetItems : List TItem :=
  [.struct [{ path := Grammar.Path.just Signature.Kw.shared }] 101 (some []), .struct [{ path := Grammar.Path.just Signature.Kw.locals }] 102 (some []),
   .fn { attrs := [{ path := Grammar.Path.just Signature.Kw.init }], rest := { attrs := [], name := 1, inputs := [.typed 0 (.path false { segs := [{ ident := 1 }, { ident := 9 }] })], output := .type (.tuple [.path false { segs := [{ ident := 101 }] }, .path false { segs := [{ ident := 102 }] }]) } },
   .fn { attrs := [{ path := Grammar.Path.just Signature.Kw.task, content := .list [.ident Grammar.Kw.priority, .eq, .int 2 false] }], rest := { attrs := [], name := 103, isAsync := true, inputs := [.typed 0 (.path false { segs := [{ ident := 103 }, { ident := 9 }] })] } }]

/-- `device = d` -/
def deviceOnly : List Tok := [.ident Grammar.Kw.device, .eq, .ident 100]

/-- the names of the dispatchers on SLIC -/
def targetFresh (i : Nat) : Ident := 1000 + i

/-- MECALL: nothing more is needed; CLINT: `backend` is required, and refused with MECALL; dispatchers are refused -/
example : accepts (expandAppSlic uiSyn uiCode false targetFresh deviceOnly targetItems) = true ∧ accepts (expandAppSlic uiSyn uiCode true targetFresh deviceOnly targetItems) = false ∧
    accepts (expandAppSlic uiSyn uiCode true targetFresh (deviceOnly ++ [.comma, .ident Grammar.Kw.backend, .eq, .ident 104]) targetItems) = true ∧
    accepts (expandAppSlic uiSyn uiCode false targetFresh (deviceOnly ++ [.comma, .ident Grammar.Kw.backend, .eq, .ident 104]) targetItems) = false ∧
    accepts (expandAppSlic uiSyn uiCode false targetFresh (deviceOnly ++ [.comma, .ident Grammar.Kw.dispatchers, .eq, .bracket [.ident 105]]) targetItems) = false := by
  refine ⟨?_, ?_, ?_, ?_, ?_⟩ <;> decide +kernel

/-- ESP32: a dispatcher is required, which is a software interrupt of the chip -/
example : accepts (expandAppEsp uiSyn uiCode .c3 (fun i => decide (i = 105)) deviceOnly targetItems) = false ∧
    accepts (expandAppEsp uiSyn uiCode .c6 (fun i => decide (i = 105)) (deviceOnly ++ [.comma, .ident Grammar.Kw.dispatchers, .eq, .bracket [.ident 105]]) targetItems) = true ∧
    accepts (expandAppEsp uiSyn uiCode .c3 (fun i => decide (i = 106)) (deviceOnly ++ [.comma, .ident Grammar.Kw.dispatchers, .eq, .bracket [.ident 105]]) targetItems) = false := by
  refine ⟨?_, ?_, ?_⟩ <;> decide +kernel

end Verif.Front
