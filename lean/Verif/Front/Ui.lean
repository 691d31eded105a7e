import Verif.Front.Props

/-!
# The rejected programs of `/repo/rtic-macros/ui` and `/repo/rtic/ui`

Generated by `tools/ui.py`. Each module is refused with the error messages of its `.stderr`, in that order; messages about the arguments of an attribute are not distinguished (`badArgs`), and repetitions are
left out (the compiler drops repeated messages at the same place; places are not modelled).
-/

namespace Verif.Front.Ui
open Verif.Front Verif.Grammar

/-- `ui/extern-interrupt-used.rs`: dispatcher interrupts can't be used as hardware tasks -/
example : errors (mockApp uiSyn false uiCode [.ident 16, .eq, .ident 1030, .comma, .ident 19, .eq, .bracket [.ident 1031]]
  [.struct [{ path := Path.just 4 }] 1032 (some []),
   .struct [{ path := Path.just 5 }] 1033 (some []),
   .fn { attrs := [{ path := Path.just 1 }], rest := { attrs := [], name := 1, inputs := [.typed 0 (.path false { segs := [{ ident := 1 }, { ident := 9 }] })], output := .type (.tuple [.path false { segs := [{ ident := 1032 }] }, .path false { segs := [{ ident := 1033 }] }]) } },
   .fn { attrs := [{ path := Path.just 3, content := .list [.ident 13, .eq, .ident 1031] }], rest := { attrs := [], name := 1034, inputs := [.typed 0 (.path false { segs := [{ ident := 1034 }, { ident := 9 }] })] } }]) = [.dispatcherIsTask 1031] := by decide +kernel

/-- `ui/extern-non-diverging-no-static-ctx.rs`: this task handler must have type signature `async fn(foo::Context<'_>, ..)` or `async fn(foo::Context<'static>, ..) -> !` -/
example : errors (mockApp uiSyn false uiCode [.ident 16, .eq, .ident 1030, .comma, .ident 19, .eq, .bracket [.ident 1031]]
  [.struct [{ path := Path.just 4 }] 1032 (some []),
   .struct [{ path := Path.just 5 }] 1033 (some []),
   .fn { attrs := [{ path := Path.just 1 }], rest := { attrs := [], name := 1, inputs := [.typed 0 (.path false { segs := [{ ident := 1 }, { ident := 9 }] })], output := .type (.tuple [.path false { segs := [{ ident := 1032 }] }, .path false { segs := [{ ident := 1033 }] }]) } },
   .foreign { name := (some 12) } [.fn { attrs := [{ path := Path.just 3 }], rest := { attrs := [], name := 1034, isAsync := true, inputs := [.typed 0 (.path false { segs := [{ ident := 1034 }, { ident := 9, args := .angle [.lifetime 10] }] })] } }]]) = [.badSignature] := by decide +kernel

/-- `ui/idle-double-local.rs`: argument appears more than once -/
example : errors (mockApp uiSyn false uiCode [.ident 16, .eq, .ident 1030]
  [.fn { attrs := [{ path := Path.just 2, content := .list [.ident 5, .eq, .bracket [.ident 1035], .comma, .ident 5, .eq, .bracket [.ident 1036]] }], rest := { attrs := [], name := 2, inputs := [.typed 0 (.path false { segs := [{ ident := 2 }, { ident := 9 }] })], output := .type (.never) } }]) = [.badArgs] := by decide +kernel

/-- `ui/idle-double-shared.rs`: argument appears more than once -/
example : errors (mockApp uiSyn false uiCode [.ident 16, .eq, .ident 1030]
  [.fn { attrs := [{ path := Path.just 2, content := .list [.ident 4, .eq, .bracket [.ident 1035], .comma, .ident 4, .eq, .bracket [.ident 1036]] }], rest := { attrs := [], name := 2, inputs := [.typed 0 (.path false { segs := [{ ident := 2 }, { ident := 9 }] })], output := .type (.never) } }]) = [.badArgs] := by decide +kernel

/-- `ui/idle-input.rs`: this `#[idle]` function must have signature `fn(idle::Context) -> !` -/
example : errors (mockApp uiSyn false uiCode [.ident 16, .eq, .ident 1030]
  [.fn { attrs := [{ path := Path.just 2 }], rest := { attrs := [], name := 2, inputs := [.typed 0 (.path false { segs := [{ ident := 2 }, { ident := 9 }] }), .typed 0 (.path false { segs := [{ ident := 1037 }] })], output := .type (.never) } }]) = [.badSignature] := by decide +kernel

/-- `ui/idle-no-context.rs`: this `#[idle]` function must have signature `fn(idle::Context) -> !` -/
example : errors (mockApp uiSyn false uiCode [.ident 16, .eq, .ident 1030]
  [.fn { attrs := [{ path := Path.just 2 }], rest := { attrs := [], name := 2, inputs := [], output := .type (.never) } }]) = [.badSignature] := by decide +kernel

/-- `ui/idle-not-divergent.rs`: this `#[idle]` function must have signature `fn(idle::Context) -> !` -/
example : errors (mockApp uiSyn false uiCode [.ident 16, .eq, .ident 1030]
  [.fn { attrs := [{ path := Path.just 2 }], rest := { attrs := [], name := 2, inputs := [.typed 0 (.path false { segs := [{ ident := 2 }, { ident := 9 }] })] } }]) = [.badSignature] := by decide +kernel

/-- `ui/idle-output.rs`: this `#[idle]` function must have signature `fn(idle::Context) -> !` -/
example : errors (mockApp uiSyn false uiCode [.ident 16, .eq, .ident 1030]
  [.fn { attrs := [{ path := Path.just 2 }], rest := { attrs := [], name := 2, inputs := [.typed 0 (.path false { segs := [{ ident := 2 }, { ident := 9 }] })], output := .type (.path false { segs := [{ ident := 1037 }] }) } }]) = [.badSignature] := by decide +kernel

/-- `ui/idle-pub.rs`: this `#[idle]` function must have signature `fn(idle::Context) -> !` -/
example : errors (mockApp uiSyn false uiCode [.ident 16, .eq, .ident 1030]
  [.fn { attrs := [{ path := Path.just 2 }], rest := { attrs := [], name := 2, isPub := true, inputs := [.typed 0 (.path false { segs := [{ ident := 2 }, { ident := 9 }] })], output := .type (.never) } }]) = [.badSignature] := by decide +kernel

/-- `ui/idle-unsafe.rs`: this `#[idle]` function must have signature `fn(idle::Context) -> !` -/
example : errors (mockApp uiSyn false uiCode [.ident 16, .eq, .ident 1030]
  [.fn { attrs := [{ path := Path.just 2 }], rest := { attrs := [], name := 2, isUnsafe := true, inputs := [.typed 0 (.path false { segs := [{ ident := 2 }, { ident := 9 }] })], output := .type (.never) } }]) = [.badSignature] := by decide +kernel

/-- `ui/init-divergent.rs`: the `#[init]` function must have signature `fn(init::Context) -> (Shared resources struct, Local resources struct)` -/
example : errors (mockApp uiSyn false uiCode [.ident 16, .eq, .ident 1030]
  [.struct [{ path := Path.just 4 }] 1032 (some []),
   .struct [{ path := Path.just 5 }] 1033 (some []),
   .fn { attrs := [{ path := Path.just 1 }], rest := { attrs := [], name := 1, inputs := [.typed 0 (.path false { segs := [{ ident := 1 }, { ident := 9 }] })], output := .type (.never) } }]) = [.badSignature] := by decide +kernel

/-- `ui/init-double-local.rs`: argument appears more than once -/
example : errors (mockApp uiSyn false uiCode [.ident 16, .eq, .ident 1030]
  [.fn { attrs := [{ path := Path.just 1, content := .list [.ident 5, .eq, .bracket [.ident 1035], .comma, .ident 5, .eq, .bracket [.ident 1036]] }], rest := { attrs := [], name := 1, inputs := [.typed 0 (.path false { segs := [{ ident := 1 }, { ident := 9 }] })] } }]) = [.badArgs] := by decide +kernel

/-- `ui/init-double-shared.rs`: unexpected argument -/
example : errors (mockApp uiSyn false uiCode [.ident 16, .eq, .ident 1030]
  [.fn { attrs := [{ path := Path.just 1, content := .list [.ident 4, .eq, .bracket [.ident 1035], .comma, .ident 4, .eq, .bracket [.ident 1036]] }], rest := { attrs := [], name := 1, inputs := [.typed 0 (.path false { segs := [{ ident := 1 }, { ident := 9 }] })] } }]) = [.badArgs] := by decide +kernel

/-- `ui/init-input.rs`: the `#[init]` function must have signature `fn(init::Context) -> (Shared resources struct, Local resources struct)` -/
example : errors (mockApp uiSyn false uiCode [.ident 16, .eq, .ident 1030]
  [.struct [{ path := Path.just 4 }] 1032 (some []),
   .struct [{ path := Path.just 5 }] 1033 (some []),
   .fn { attrs := [{ path := Path.just 1 }], rest := { attrs := [], name := 1, inputs := [.typed 0 (.path false { segs := [{ ident := 1 }, { ident := 9 }] }), .typed 0 (.path false { segs := [{ ident := 1037 }] })], output := .type (.tuple [.path false { segs := [{ ident := 1032 }] }, .path false { segs := [{ ident := 1033 }] }]) } }]) = [.badSignature] := by decide +kernel

/-- `ui/init-no-context.rs`: the `#[init]` function must have signature `fn(init::Context) -> (Shared resources struct, Local resources struct)` -/
example : errors (mockApp uiSyn false uiCode [.ident 16, .eq, .ident 1030]
  [.struct [{ path := Path.just 4 }] 1032 (some []),
   .struct [{ path := Path.just 5 }] 1033 (some []),
   .fn { attrs := [{ path := Path.just 1 }], rest := { attrs := [], name := 1, inputs := [], output := .type (.tuple [.path false { segs := [{ ident := 1032 }] }, .path false { segs := [{ ident := 1033 }] }]) } }]) = [.badSignature] := by decide +kernel

/-- `ui/init-output.rs`: the `#[init]` function must have signature `fn(init::Context) -> (Shared resources struct, Local resources struct)` -/
example : errors (mockApp uiSyn false uiCode [.ident 16, .eq, .ident 1030]
  [.fn { attrs := [{ path := Path.just 1 }], rest := { attrs := [], name := 1, inputs := [.typed 0 (.path false { segs := [{ ident := 1 }, { ident := 9 }] })], output := .type (.path false { segs := [{ ident := 1037 }] }) } }]) = [.badSignature] := by decide +kernel

/-- `ui/init-pub.rs`: the `#[init]` function must have signature `fn(init::Context) -> (Shared resources struct, Local resources struct)` -/
example : errors (mockApp uiSyn false uiCode [.ident 16, .eq, .ident 1030]
  [.struct [{ path := Path.just 4 }] 1032 (some []),
   .struct [{ path := Path.just 5 }] 1033 (some []),
   .fn { attrs := [{ path := Path.just 1 }], rest := { attrs := [], name := 1, isPub := true, inputs := [.typed 0 (.path false { segs := [{ ident := 1 }, { ident := 9 }] })], output := .type (.tuple [.path false { segs := [{ ident := 1032 }] }, .path false { segs := [{ ident := 1033 }] }]) } }]) = [.badSignature] := by decide +kernel

/-- `ui/init-unsafe.rs`: the `#[init]` function must have signature `fn(init::Context) -> (Shared resources struct, Local resources struct)` -/
example : errors (mockApp uiSyn false uiCode [.ident 16, .eq, .ident 1030]
  [.fn { attrs := [{ path := Path.just 1 }], rest := { attrs := [], name := 1, isUnsafe := true, inputs := [.typed 0 (.path false { segs := [{ ident := 1 }, { ident := 9 }] })], output := .type (.tuple [.path false { segs := [{ ident := 1032 }] }, .path false { segs := [{ ident := 1033 }] }]) } }]) = [.badSignature] := by decide +kernel

/-- `ui/interrupt-double.rs`: this interrupt is already bound -/
example : errors (mockApp uiSyn false uiCode [.ident 16, .eq, .ident 1030]
  [.fn { attrs := [{ path := Path.just 3, content := .list [.ident 13, .eq, .ident 1038] }], rest := { attrs := [], name := 1034, inputs := [.typed 0 (.path false { segs := [{ ident := 1034 }, { ident := 9 }] })] } },
   .fn { attrs := [{ path := Path.just 3, content := .list [.ident 13, .eq, .ident 1038] }], rest := { attrs := [], name := 1039, inputs := [.typed 0 (.path false { segs := [{ ident := 1039 }, { ident := 9 }] })] } }]) = [.bound 1038] := by decide +kernel

/-- `ui/local-collision-2.rs`: Local resource "a" is used by multiple tasks or collides with multiple definitions -/
example : errors (mockApp uiSyn false uiCode [.ident 16, .eq, .ident 1030]
  [.struct [{ path := Path.just 4 }] 1032 (some []),
   .struct [{ path := Path.just 5 }] 1033 (some [{ attrs := [], rest := { name := 1040, ty := .path false { segs := [{ ident := 1037 }] } } }]),
   .fn { attrs := [{ path := Path.just 3, content := .list [.ident 5, .eq, .bracket [.ident 1040, .colon, .ident 1041, .eq, .int 3 false]] }], rest := { attrs := [], name := 1039, isAsync := true, inputs := [.typed 0 (.path false { segs := [{ ident := 1039 }, { ident := 9 }] })] } },
   .fn { attrs := [{ path := Path.just 1, content := .list [.ident 5, .eq, .bracket [.ident 1040, .colon, .ident 1042, .eq, .int 2 false]] }], rest := { attrs := [], name := 1, inputs := [.typed 0 (.path false { segs := [{ ident := 1 }, { ident := 9 }] })], output := .type (.tuple [.path false { segs := [{ ident := 1032 }] }, .path false { segs := [{ ident := 1033 }] }]) } }]) = [.localShared 1040] := by decide +kernel

/-- `ui/local-collision.rs`: Local resource "a" is used by multiple tasks or collides with multiple definitions -/
example : errors (mockApp uiSyn false uiCode [.ident 16, .eq, .ident 1030]
  [.struct [{ path := Path.just 4 }] 1032 (some []),
   .struct [{ path := Path.just 5 }] 1033 (some [{ attrs := [], rest := { name := 1040, ty := .path false { segs := [{ ident := 1037 }] } } }]),
   .fn { attrs := [{ path := Path.just 3, content := .list [.ident 5, .eq, .bracket [.ident 1040]] }], rest := { attrs := [], name := 1034, isAsync := true, inputs := [.typed 0 (.path false { segs := [{ ident := 1034 }, { ident := 9 }] })] } },
   .fn { attrs := [{ path := Path.just 3, content := .list [.ident 5, .eq, .bracket [.ident 1040, .colon, .ident 1041, .eq, .int 3 false]] }], rest := { attrs := [], name := 1039, isAsync := true, inputs := [.typed 0 (.path false { segs := [{ ident := 1039 }, { ident := 9 }] })] } },
   .fn { attrs := [{ path := Path.just 1 }], rest := { attrs := [], name := 1, inputs := [.typed 0 (.path false { segs := [{ ident := 1 }, { ident := 9 }] })], output := .type (.tuple [.path false { segs := [{ ident := 1032 }] }, .path false { segs := [{ ident := 1033 }] }]) } }]) = [.localShared 1040] := by decide +kernel

/-- `ui/local-malformed-1.rs`: unexpected end of input, expected one of: `for`, parentheses, `fn`, `unsafe`, `extern`, identifier, `::`, `<`, `dyn`, square brackets, `*`, `&`, `!`, `impl`, `_`, lifetime -/
example : errors (mockApp uiSyn false uiCode [.ident 16, .eq, .ident 1030]
  [.struct [{ path := Path.just 4 }] 1032 (some []),
   .struct [{ path := Path.just 5 }] 1033 (some []),
   .fn { attrs := [{ path := Path.just 3, content := .list [.ident 5, .eq, .bracket [.ident 1040, .colon]] }], rest := { attrs := [], name := 1034, isAsync := true, inputs := [.typed 0 (.path false { segs := [{ ident := 1034 }, { ident := 9 }] })] } },
   .fn { attrs := [{ path := Path.just 1 }], rest := { attrs := [], name := 1, inputs := [.typed 0 (.path false { segs := [{ ident := 1 }, { ident := 9 }] })], output := .type (.tuple [.path false { segs := [{ ident := 1032 }] }, .path false { segs := [{ ident := 1033 }] }]) } }]) = [.badArgs] := by decide +kernel

/-- `ui/local-malformed-2.rs`: malformed, expected 'IDENT: TYPE = EXPR' -/
example : errors (mockApp uiSyn false uiCode [.ident 16, .eq, .ident 1030]
  [.struct [{ path := Path.just 4 }] 1032 (some []),
   .struct [{ path := Path.just 5 }] 1033 (some []),
   .fn { attrs := [{ path := Path.just 3, content := .list [.ident 5, .eq, .bracket [.ident 1040, .colon, .ident 1037]] }], rest := { attrs := [], name := 1034, isAsync := true, inputs := [.typed 0 (.path false { segs := [{ ident := 1034 }, { ident := 9 }] })] } },
   .fn { attrs := [{ path := Path.just 1 }], rest := { attrs := [], name := 1, inputs := [.typed 0 (.path false { segs := [{ ident := 1 }, { ident := 9 }] })], output := .type (.tuple [.path false { segs := [{ ident := 1032 }] }, .path false { segs := [{ ident := 1033 }] }]) } }]) = [.badArgs] := by decide +kernel

/-- `ui/local-malformed-3.rs`: unexpected end of input, expected an expression -/
example : errors (mockApp uiSyn false uiCode [.ident 16, .eq, .ident 1030]
  [.struct [{ path := Path.just 4 }] 1032 (some []),
   .struct [{ path := Path.just 5 }] 1033 (some []),
   .fn { attrs := [{ path := Path.just 3, content := .list [.ident 5, .eq, .bracket [.ident 1040, .colon, .ident 1037, .eq]] }], rest := { attrs := [], name := 1034, isAsync := true, inputs := [.typed 0 (.path false { segs := [{ ident := 1034 }, { ident := 9 }] })] } },
   .fn { attrs := [{ path := Path.just 1 }], rest := { attrs := [], name := 1, inputs := [.typed 0 (.path false { segs := [{ ident := 1 }, { ident := 9 }] })], output := .type (.tuple [.path false { segs := [{ ident := 1032 }] }, .path false { segs := [{ ident := 1033 }] }]) } }]) = [.badArgs] := by decide +kernel

/-- `ui/local-malformed-4.rs`: malformed, expected a type -/
example : errors (mockApp uiSyn false uiCode [.ident 16, .eq, .ident 1030]
  [.struct [{ path := Path.just 4 }] 1032 (some []),
   .struct [{ path := Path.just 5 }] 1033 (some []),
   .fn { attrs := [{ path := Path.just 3, content := .list [.ident 5, .eq, .bracket [.ident 1040, .eq, .ident 1037]] }], rest := { attrs := [], name := 1034, isAsync := true, inputs := [.typed 0 (.path false { segs := [{ ident := 1034 }, { ident := 9 }] })] } },
   .fn { attrs := [{ path := Path.just 1 }], rest := { attrs := [], name := 1, inputs := [.typed 0 (.path false { segs := [{ ident := 1 }, { ident := 9 }] })], output := .type (.tuple [.path false { segs := [{ ident := 1032 }] }, .path false { segs := [{ ident := 1033 }] }]) } }]) = [.badArgs] := by decide +kernel

/-- `ui/local-not-declared.rs`: this local resource has NOT been declared -/
example : errors (mockApp uiSyn false uiCode [.ident 16, .eq, .ident 1030]
  [.struct [{ path := Path.just 4 }] 1032 (some []),
   .struct [{ path := Path.just 5 }] 1033 (some []),
   .fn { attrs := [{ path := Path.just 3, content := .list [.ident 5, .eq, .bracket [.ident 1035]] }], rest := { attrs := [], name := 1034, isAsync := true, inputs := [.typed 0 (.path false { segs := [{ ident := 1034 }, { ident := 9 }] })] } },
   .fn { attrs := [{ path := Path.just 1 }], rest := { attrs := [], name := 1, inputs := [.typed 0 (.path false { segs := [{ ident := 1 }, { ident := 9 }] })], output := .type (.tuple [.path false { segs := [{ ident := 1032 }] }, .path false { segs := [{ ident := 1033 }] }]) } }]) = [.undeclaredLocal 1035] := by decide +kernel

/-- `ui/local-shared-attribute.rs`: attributes are not supported here -/
example : errors (mockApp uiSyn false uiCode [.ident 16, .eq, .ident 1030]
  [.struct [{ path := Path.just 4 }] 1032 (some []),
   .struct [{ path := Path.just 5 }] 1033 (some []),
   .fn { attrs := [{ path := Path.just 1 }], rest := { attrs := [], name := 1, inputs := [.typed 0 (.path false { segs := [{ ident := 1 }, { ident := 9 }] })], output := .type (.tuple [.path false { segs := [{ ident := 1032 }] }, .path false { segs := [{ ident := 1033 }] }]) } },
   .fn { attrs := [{ path := Path.just 3, content := .list [.ident 5, .eq, .bracket [.attr { path := Path.just 1043 }, .ident 1040, .colon, .ident 1037, .eq, .int 0 false, .comma, .attr { path := Path.just 1043 }, .ident 1044, .comma]] }], rest := { attrs := [], name := 1034, inputs := [.typed 0 (.path false { segs := [{ ident := 1034 }, { ident := 9 }] })] } }]) = [.badArgs] := by decide +kernel

/-- `ui/local-shared.rs`: Local resource "l1" is used by multiple tasks or collides with multiple definitions -/
example : errors (mockApp uiSyn false uiCode [.ident 16, .eq, .ident 1030]
  [.struct [{ path := Path.just 4 }] 1032 (some []),
   .struct [{ path := Path.just 5 }] 1033 (some [{ attrs := [], rest := { name := 1045, ty := .path false { segs := [{ ident := 1037 }] } } }, { attrs := [], rest := { name := 1046, ty := .path false { segs := [{ ident := 1037 }] } } }]),
   .fn { attrs := [{ path := Path.just 1 }], rest := { attrs := [], name := 1, inputs := [.typed 0 (.path false { segs := [{ ident := 1 }, { ident := 9 }] })], output := .type (.tuple [.path false { segs := [{ ident := 1032 }] }, .path false { segs := [{ ident := 1033 }] }]) } },
   .fn { attrs := [{ path := Path.just 2, content := .list [.ident 5, .eq, .bracket [.ident 1046]] }], rest := { attrs := [], name := 2, inputs := [.typed 0 (.path false { segs := [{ ident := 2 }, { ident := 9 }] })], output := .type (.never) } },
   .fn { attrs := [{ path := Path.just 3, content := .list [.ident 14, .eq, .int 1 false, .comma, .ident 5, .eq, .bracket [.ident 1045]] }], rest := { attrs := [], name := 1047, isAsync := true, inputs := [.typed 0 (.path false { segs := [{ ident := 1047 }, { ident := 9 }] })] } },
   .fn { attrs := [{ path := Path.just 3, content := .list [.ident 14, .eq, .int 2 false, .comma, .ident 5, .eq, .bracket [.ident 1045]] }], rest := { attrs := [], name := 1048, isAsync := true, inputs := [.typed 0 (.path false { segs := [{ ident := 1048 }, { ident := 9 }] })] } }]) = [.localShared 1045] := by decide +kernel

/-- `ui/shared-lock-free.rs`: Lock free shared resource "e1" is used by tasks at different priorities; Shared resource "e1" is declared lock free but used by tasks at different priorities -/
example : errors (mockApp uiSyn false uiCode [.ident 16, .eq, .ident 1030]
  [.struct [{ path := Path.just 4 }] 1032 (some [{ attrs := [{ path := Path.just 8 }], rest := { name := 1049, ty := .path false { segs := [{ ident := 1037 }] } } }, { attrs := [{ path := Path.just 8 }], rest := { name := 1050, ty := .path false { segs := [{ ident := 1037 }] } } }]),
   .struct [{ path := Path.just 5 }] 1033 (some []),
   .fn { attrs := [{ path := Path.just 1 }], rest := { attrs := [], name := 1, inputs := [.typed 0 (.path false { segs := [{ ident := 1 }, { ident := 9 }] })], output := .type (.tuple [.path false { segs := [{ ident := 1032 }] }, .path false { segs := [{ ident := 1033 }] }]) } },
   .fn { attrs := [{ path := Path.just 2, content := .list [.ident 4, .eq, .bracket [.ident 1050]] }], rest := { attrs := [], name := 2, inputs := [.typed 0 (.path false { segs := [{ ident := 2 }, { ident := 9 }] })], output := .type (.never) } },
   .fn { attrs := [{ path := Path.just 3, content := .list [.ident 13, .eq, .ident 1038, .comma, .ident 14, .eq, .int 1 false, .comma, .ident 4, .eq, .bracket [.ident 1049]] }], rest := { attrs := [], name := 1047, inputs := [.typed 0 (.path false { segs := [{ ident := 1047 }, { ident := 9 }] })] } },
   .fn { attrs := [{ path := Path.just 3, content := .list [.ident 13, .eq, .ident 1051, .comma, .ident 14, .eq, .int 2 false, .comma, .ident 4, .eq, .bracket [.ident 1049]] }], rest := { attrs := [], name := 1048, inputs := [.typed 0 (.path false { segs := [{ ident := 1048 }, { ident := 9 }] })] } }]) = [.lockFreeStruct 1049, .lockFreePrio 1049] := by decide +kernel

/-- `ui/shared-not-declared.rs`: this shared resource has NOT been declared -/
example : errors (mockApp uiSyn false uiCode [.ident 16, .eq, .ident 1030]
  [.struct [{ path := Path.just 4 }] 1032 (some []),
   .struct [{ path := Path.just 5 }] 1033 (some []),
   .fn { attrs := [{ path := Path.just 3, content := .list [.ident 4, .eq, .bracket [.ident 1035]] }], rest := { attrs := [], name := 1034, isAsync := true, inputs := [.typed 0 (.path false { segs := [{ ident := 1034 }, { ident := 9 }] })] } },
   .fn { attrs := [{ path := Path.just 1 }], rest := { attrs := [], name := 1, inputs := [.typed 0 (.path false { segs := [{ ident := 1 }, { ident := 9 }] })], output := .type (.tuple [.path false { segs := [{ ident := 1032 }] }, .path false { segs := [{ ident := 1033 }] }]) } }]) = [.undeclaredShared 1035] := by decide +kernel

/-- `ui/task-double-local.rs`: argument appears more than once -/
example : errors (mockApp uiSyn false uiCode [.ident 16, .eq, .ident 1030]
  [.fn { attrs := [{ path := Path.just 3, content := .list [.ident 5, .eq, .bracket [.ident 1035], .comma, .ident 5, .eq, .bracket [.ident 1036]] }], rest := { attrs := [], name := 1034, isAsync := true, inputs := [.typed 0 (.path false { segs := [{ ident := 1034 }, { ident := 9 }] })] } }]) = [.badArgs] := by decide +kernel

/-- `ui/task-double-priority.rs`: argument appears more than once -/
example : errors (mockApp uiSyn false uiCode [.ident 16, .eq, .ident 1030]
  [.fn { attrs := [{ path := Path.just 3, content := .list [.ident 14, .eq, .int 1 false, .comma, .ident 14, .eq, .int 2 false] }], rest := { attrs := [], name := 1034, isAsync := true, inputs := [.typed 0 (.path false { segs := [{ ident := 1034 }, { ident := 9 }] })] } }]) = [.badArgs] := by decide +kernel

/-- `ui/task-double-shared.rs`: argument appears more than once -/
example : errors (mockApp uiSyn false uiCode [.ident 16, .eq, .ident 1030]
  [.fn { attrs := [{ path := Path.just 3, content := .list [.ident 4, .eq, .bracket [.ident 1035], .comma, .ident 4, .eq, .bracket [.ident 1036]] }], rest := { attrs := [], name := 1034, isAsync := true, inputs := [.typed 0 (.path false { segs := [{ ident := 1034 }, { ident := 9 }] })] } }]) = [.badArgs] := by decide +kernel

/-- `ui/task-idle.rs`: this identifier has already been used -/
example : errors (mockApp uiSyn false uiCode [.ident 16, .eq, .ident 1030]
  [.fn { attrs := [{ path := Path.just 2 }], rest := { attrs := [], name := 1034, inputs := [.typed 0 (.path false { segs := [{ ident := 1034 }, { ident := 9 }] })], output := .type (.never) } },
   .fn { attrs := [{ path := Path.just 3 }], rest := { attrs := [], name := 1034, isAsync := true, inputs := [.typed 0 (.path false { segs := [{ ident := 1034 }, { ident := 9 }] })] } }]) = [.identUsed 1034] := by decide +kernel

/-- `ui/task-init.rs`: this identifier has already been used -/
example : errors (mockApp uiSyn false uiCode [.ident 16, .eq, .ident 1030]
  [.struct [{ path := Path.just 4 }] 1032 (some []),
   .struct [{ path := Path.just 5 }] 1033 (some []),
   .fn { attrs := [{ path := Path.just 1 }], rest := { attrs := [], name := 1034, inputs := [.typed 0 (.path false { segs := [{ ident := 1034 }, { ident := 9 }] })], output := .type (.tuple [.path false { segs := [{ ident := 1032 }] }, .path false { segs := [{ ident := 1033 }] }]) } },
   .fn { attrs := [{ path := Path.just 3 }], rest := { attrs := [], name := 1034, isAsync := true, inputs := [.typed 0 (.path false { segs := [{ ident := 1034 }, { ident := 9 }] })] } }]) = [.identUsed 1034] := by decide +kernel

/-- `ui/task-interrupt.rs`: this task is defined multiple times -/
example : errors (mockApp uiSyn false uiCode [.ident 16, .eq, .ident 1030]
  [.fn { attrs := [{ path := Path.just 3, content := .list [.ident 13, .eq, .ident 900] }], rest := { attrs := [], name := 1034, inputs := [.typed 0 (.path false { segs := [{ ident := 1034 }, { ident := 9 }] })] } },
   .fn { attrs := [{ path := Path.just 3 }], rest := { attrs := [], name := 1034, isAsync := true, inputs := [.typed 0 (.path false { segs := [{ ident := 1034 }, { ident := 9 }] })] } }]) = [.taskTwice] := by decide +kernel

/-- `ui/task-no-context.rs`: this task handler must have type signature `async fn(foo::Context, ..)` or `async fn(foo::Context, ..) -> !` -/
example : errors (mockApp uiSyn false uiCode [.ident 16, .eq, .ident 1030]
  [.fn { attrs := [{ path := Path.just 3 }], rest := { attrs := [], name := 1034, isAsync := true, inputs := [] } }]) = [.badSignature] := by decide +kernel

/-- `ui/task-no-prio.rs`: Async task "task1" has priority 0, but `#[idle]` is defined. 0-priority async tasks are only allowed if there is no `#[idle]`. -/
example : errors (mockApp uiSyn false uiCode [.ident 16, .eq, .ident 1030]
  [.struct [{ path := Path.just 4 }] 1032 (some []),
   .struct [{ path := Path.just 5 }] 1033 (some []),
   .fn { attrs := [{ path := Path.just 1 }], rest := { attrs := [], name := 1, inputs := [.typed 0 (.path false { segs := [{ ident := 1 }, { ident := 9 }] })], output := .type (.tuple [.path false { segs := [{ ident := 1032 }] }, .path false { segs := [{ ident := 1033 }] }]) } },
   .fn { attrs := [{ path := Path.just 2 }], rest := { attrs := [], name := 2, inputs := [.typed 0 (.path false { segs := [{ ident := 2 }, { ident := 9 }] })], output := .type (.never) } },
   .fn { attrs := [{ path := Path.just 3 }], rest := { attrs := [], name := 1052, isAsync := true, inputs := [.typed 0 (.path false { segs := [{ ident := 1052 }, { ident := 9 }] })] } }]) = [.prioZeroIdle 1052] := by decide +kernel

/-- `ui/task-priority-too-high.rs`: this literal must be in the range 0...255 -/
example : errors (mockApp uiSyn false uiCode [.ident 16, .eq, .ident 1030]
  [.fn { attrs := [{ path := Path.just 3, content := .list [.ident 14, .eq, .int 256 false] }], rest := { attrs := [], name := 1034, isAsync := true, inputs := [.typed 0 (.path false { segs := [{ ident := 1034 }, { ident := 9 }] })] } }]) = [.badArgs] := by decide +kernel

/-- `ui/task-priority-too-low.rs`: hardware tasks are not allowed to be at priority 0 -/
example : errors (mockApp uiSyn false uiCode [.ident 16, .eq, .ident 1030]
  [.fn { attrs := [{ path := Path.just 3, content := .list [.ident 13, .eq, .ident 1038, .comma, .ident 14, .eq, .int 0 false] }], rest := { attrs := [], name := 1034, inputs := [.typed 0 (.path false { segs := [{ ident := 1034 }, { ident := 9 }] })] } }]) = [.badArgs] := by decide +kernel

/-- `ui/task-pub.rs`: this task handler must have type signature `async fn(foo::Context, ..)` or `async fn(foo::Context, ..) -> !` -/
example : errors (mockApp uiSyn false uiCode [.ident 16, .eq, .ident 1030]
  [.fn { attrs := [{ path := Path.just 3 }], rest := { attrs := [], name := 1034, isPub := true, isAsync := true, inputs := [.typed 0 (.path false { segs := [{ ident := 1034 }, { ident := 9 }] })] } }]) = [.badSignature] := by decide +kernel

/-- `ui/task-unsafe.rs`: this task handler must have type signature `async fn(foo::Context, ..)` or `async fn(foo::Context, ..) -> !` -/
example : errors (mockApp uiSyn false uiCode [.ident 16, .eq, .ident 1030]
  [.fn { attrs := [{ path := Path.just 3 }], rest := { attrs := [], name := 1034, isAsync := true, isUnsafe := true, inputs := [.typed 0 (.path false { segs := [{ ident := 1034 }, { ident := 9 }] })] } }]) = [.badSignature] := by decide +kernel

/-- `ui/task-zero-prio.rs`: this task handler must have type signature `async fn(foo::Context, ..)` or `async fn(foo::Context, ..) -> !` -/
example : errors (mockApp uiSyn false uiCode [.ident 16, .eq, .ident 1030]
  [.struct [{ path := Path.just 4 }] 1032 (some []),
   .struct [{ path := Path.just 5 }] 1033 (some []),
   .fn { attrs := [{ path := Path.just 1 }], rest := { attrs := [], name := 1, inputs := [.typed 0 (.path false { segs := [{ ident := 1 }, { ident := 9 }] })], output := .type (.tuple [.path false { segs := [{ ident := 1032 }] }, .path false { segs := [{ ident := 1033 }] }]) } },
   .fn { attrs := [{ path := Path.just 3, content := .list [.ident 14, .eq, .int 0 false] }], rest := { attrs := [], name := 1034, inputs := [.typed 0 (.path false { segs := [{ ident := 1034 }, { ident := 9 }] })] } },
   .fn { attrs := [{ path := Path.just 2 }], rest := { attrs := [], name := 2, inputs := [.typed 0 (.path false { segs := [{ ident := 2 }, { ident := 9 }] })], output := .type (.never) } }]) = [.badSignature] := by decide +kernel

/-! `/repo/rtic/ui`: the whole macro, for a microcontroller with 3 bits of priority. The other programs there are refused by the compiler when it sees the generated code, not by the macro. -/

/-- `rtic/ui/arbiter-not-send.rs`: error[E0277]: `Rc<u32>` cannot be sent between threads safely -/
example : accepts (expandApp uiSyn uiCode uiTarget 3 [.ident 16, .eq, .ident 1054, .comma, .ident 19, .eq, .bracket [.ident 1055, .comma, .ident 1056]]
  [.other,
   .other,
   .struct [{ path := Path.just 4 }] 1032 (some []),
   .struct [{ path := Path.just 5 }] 1033 (some [{ attrs := [], rest := { name := 1057, ty := .path false { segs := [{ ident := 1058, args := .angle [.other] }] } } }, { attrs := [], rest := { name := 1059, ty := .path false { segs := [{ ident := 1058, args := .angle [.other] }] } } }]),
   .fn { attrs := [{ path := Path.just 1 }], rest := { attrs := [], name := 1, inputs := [.typed 0 (.path false { segs := [{ ident := 1 }, { ident := 9 }] })], output := .type (.tuple [.path false { segs := [{ ident := 1032 }] }, .path false { segs := [{ ident := 1033 }] }]) } },
   .fn { attrs := [{ path := Path.just 3, content := .list [.ident 14, .eq, .int 1 false, .comma, .ident 5, .eq, .bracket [.ident 1057]] }], rest := { attrs := [], name := 1060, isAsync := true, inputs := [.typed 0 (.path false { segs := [{ ident := 1060 }, { ident := 9 }] })], output := .type (.never) } },
   .fn { attrs := [{ path := Path.just 3, content := .list [.ident 14, .eq, .int 2 false, .comma, .ident 5, .eq, .bracket [.ident 1059]] }], rest := { attrs := [], name := 1061, isAsync := true, inputs := [.typed 0 (.path false { segs := [{ ident := 1061 }, { ident := 9 }] })] } }]) = true := by decide +kernel

/-- `rtic/ui/arbiter-not-sync.rs`: error[E0277]: `Rc<u32>` cannot be sent between threads safely -/
example : accepts (expandApp uiSyn uiCode uiTarget 3 [.ident 16, .eq, .ident 1054]
  [.other,
   .other,
   .struct [{ path := Path.just 4 }] 1032 (some []),
   .struct [{ path := Path.just 5 }] 1033 (some []),
   .other,
   .fn { attrs := [{ path := Path.just 1 }], rest := { attrs := [], name := 1, inputs := [.typed 0 (.path false { segs := [{ ident := 1 }, { ident := 9 }] })], output := .type (.tuple [.path false { segs := [{ ident := 1032 }] }, .path false { segs := [{ ident := 1033 }] }]) } },
   .fn { attrs := [{ path := Path.just 3, content := .list [.ident 13, .eq, .ident 1056, .comma, .ident 14, .eq, .int 1 false] }], rest := { attrs := [], name := 1060, inputs := [.typed 0 (.path false { segs := [{ ident := 1060 }, { ident := 9 }] })] } },
   .fn { attrs := [{ path := Path.just 3, content := .list [.ident 13, .eq, .ident 1055, .comma, .ident 14, .eq, .int 2 false] }], rest := { attrs := [], name := 1061, inputs := [.typed 0 (.path false { segs := [{ ident := 1061 }, { ident := 9 }] })] } }]) = true := by decide +kernel

/-- `rtic/ui/channel-not-sync.rs`: error[E0277]: `RefCell<u32>` cannot be shared between threads safely -/
example : accepts (expandApp uiSyn uiCode uiTarget 3 [.ident 16, .eq, .ident 1054, .comma, .ident 19, .eq, .bracket [.ident 1056]]
  [.other,
   .other,
   .struct [{ path := Path.just 4 }] 1032 (some []),
   .struct [{ path := Path.just 5 }] 1033 (some [{ attrs := [], rest := { name := 1062, ty := .path false { segs := [{ ident := 1063, args := .angle [.lifetime 10, .other, .other] }] } } }, { attrs := [], rest := { name := 1064, ty := .path false { segs := [{ ident := 1065, args := .angle [.lifetime 10, .other, .other] }] } } }]),
   .other,
   .fn { attrs := [{ path := Path.just 1, content := .list [.ident 5, .eq, .bracket [.ident 1066, .colon, .other 11, .eq, .other 24]] }], rest := { attrs := [], name := 1, inputs := [.typed 0 (.path false { segs := [{ ident := 1 }, { ident := 9 }] })], output := .type (.tuple [.path false { segs := [{ ident := 1032 }] }, .path false { segs := [{ ident := 1033 }] }]) } },
   .fn { attrs := [{ path := Path.just 2, content := .list [.ident 5, .eq, .bracket [.ident 1064, .comma, .ident 1067, .colon, .other 31, .eq, .other 44]] }], rest := { attrs := [], name := 2, inputs := [.typed 0 (.path false { segs := [{ ident := 2 }, { ident := 9 }] })], output := .type (.never) } },
   .fn { attrs := [{ path := Path.just 3, content := .list [.ident 14, .eq, .int 2 false, .comma, .ident 5, .eq, .bracket [.ident 1062]] }], rest := { attrs := [], name := 1061, isAsync := true, inputs := [.typed 0 (.path false { segs := [{ ident := 1061 }, { ident := 9 }] })] } }]) = true := by decide +kernel

/-- `rtic/ui/custom_section.rs`: error: This should be the only error in the file -/
example : accepts (expandApp uiSyn uiCode uiTarget 3 [.ident 16, .eq, .ident 1054]
  [.struct [{ path := Path.just 4 }] 1032 (some [{ attrs := [{ path := Path.just 1068, content := .list [] }], rest := { name := 1034, ty := .tuple [] } }]),
   .struct [{ path := Path.just 5 }] 1033 (some []),
   .fn { attrs := [{ path := Path.just 1 }], rest := { attrs := [], name := 1, inputs := [.typed 0 (.path false { segs := [{ ident := 1 }, { ident := 9 }] })], output := .type (.tuple [.path false { segs := [{ ident := 1032 }] }, .path false { segs := [{ ident := 1033 }] }]) } }]) = true := by decide +kernel

/-- `rtic/ui/exception-invalid.rs`: error: only exceptions with configurable priority can be used as hardware tasks -/
example : errors (expandApp uiSyn uiCode uiTarget 3 [.ident 16, .eq, .ident 1054]
  [.struct [{ path := Path.just 4 }] 1032 (some []),
   .struct [{ path := Path.just 5 }] 1033 (some []),
   .fn { attrs := [{ path := Path.just 1 }], rest := { attrs := [], name := 1, inputs := [.typed 0 (.path false { segs := [{ ident := 1 }, { ident := 9 }] })], output := .type (.tuple [.path false { segs := [{ ident := 1032 }] }, .path false { segs := [{ ident := 1033 }] }]) } },
   .fn { attrs := [{ path := Path.just 3, content := .list [.ident 13, .eq, .ident 950] }], rest := { attrs := [], name := 1053, inputs := [.typed 0 (.path false { segs := [{ ident := 1053 }, { ident := 9 }] })] } }]) = [.badException 1053] := by decide +kernel

/-- `rtic/ui/extern-interrupt-not-enough.rs`: error: not enough interrupts to dispatch all software tasks (need: 1; given: 0) -/
example : errors (expandApp uiSyn uiCode uiTarget 3 [.ident 16, .eq, .ident 1054]
  [.struct [{ path := Path.just 4 }] 1032 (some []),
   .struct [{ path := Path.just 5 }] 1033 (some []),
   .fn { attrs := [{ path := Path.just 1 }], rest := { attrs := [], name := 1, inputs := [.typed 0 (.path false { segs := [{ ident := 1 }, { ident := 9 }] })], output := .type (.tuple [.path false { segs := [{ ident := 1032 }] }, .path false { segs := [{ ident := 1033 }] }]) } },
   .fn { attrs := [{ path := Path.just 3, content := .list [.ident 14, .eq, .int 1 false] }], rest := { attrs := [], name := 1040, isAsync := true, inputs := [.typed 0 (.path false { segs := [{ ident := 1040 }, { ident := 9 }] })] } }]) = [.notEnough] := by decide +kernel

/-- `rtic/ui/extern-interrupt-used.rs`: error: dispatcher interrupts can't be used as hardware tasks -/
example : errors (expandApp uiSyn uiCode uiTarget 3 [.ident 16, .eq, .ident 1054, .comma, .ident 19, .eq, .bracket [.ident 1038]]
  [.struct [{ path := Path.just 4 }] 1032 (some []),
   .struct [{ path := Path.just 5 }] 1033 (some []),
   .fn { attrs := [{ path := Path.just 1 }], rest := { attrs := [], name := 1, inputs := [.typed 0 (.path false { segs := [{ ident := 1 }, { ident := 9 }] })], output := .type (.tuple [.path false { segs := [{ ident := 1032 }] }, .path false { segs := [{ ident := 1033 }] }]) } },
   .fn { attrs := [{ path := Path.just 3, content := .list [.ident 13, .eq, .ident 1038] }], rest := { attrs := [], name := 1040, inputs := [.typed 0 (.path false { segs := [{ ident := 1040 }, { ident := 9 }] })] } }]) = [.dispatcherIsTask 1038] := by decide +kernel

/-- `rtic/ui/inner_attribute.rs`: error: this lint expectation is unfulfilled -/
example : accepts (expandApp uiSyn uiCode uiTarget 3 [.ident 16, .eq, .ident 1054]
  [.struct [{ inner := true, path := Path.just 1069, content := .list [] }, { path := Path.just 4 }] 1032 (some [{ attrs := [{ path := Path.just 1068, content := .list [] }], rest := { name := 1034, ty := .tuple [] } }]),
   .struct [{ path := Path.just 5 }] 1033 (some []),
   .fn { attrs := [{ path := Path.just 1 }], rest := { attrs := [], name := 1, inputs := [.typed 0 (.path false { segs := [{ ident := 1 }, { ident := 9 }] })], output := .type (.tuple [.path false { segs := [{ ident := 1032 }] }, .path false { segs := [{ ident := 1033 }] }]) } }]) = true := by decide +kernel

/-- `rtic/ui/locals-not-send.rs`: error[E0277]: `&'static RefCell<u32>` cannot be sent between threads safely -/
example : accepts (expandApp uiSyn uiCode uiTarget 3 [.ident 16, .eq, .ident 1054]
  [.other,
   .struct [{ path := Path.just 4 }] 1032 (some []),
   .struct [{ path := Path.just 5 }] 1033 (some [{ attrs := [], rest := { name := 1057, ty := .other 5 } }, { attrs := [], rest := { name := 1059, ty := .other 6 } }]),
   .fn { attrs := [{ path := Path.just 1, content := .list [.ident 5, .eq, .bracket [.ident 1070, .colon, .other 71, .eq, .other 84]] }], rest := { attrs := [], name := 1, inputs := [.typed 0 (.path false { segs := [{ ident := 1 }, { ident := 9 }] })], output := .type (.tuple [.path false { segs := [{ ident := 1032 }] }, .path false { segs := [{ ident := 1033 }] }]) } },
   .fn { attrs := [{ path := Path.just 3, content := .list [.ident 13, .eq, .ident 1055, .comma, .ident 14, .eq, .int 1 false, .comma, .ident 5, .eq, .bracket [.ident 1057]] }], rest := { attrs := [], name := 1060, inputs := [.typed 0 (.path false { segs := [{ ident := 1060 }, { ident := 9 }] })] } },
   .fn { attrs := [{ path := Path.just 3, content := .list [.ident 13, .eq, .ident 1056, .comma, .ident 14, .eq, .int 2 false, .comma, .ident 5, .eq, .bracket [.ident 1059]] }], rest := { attrs := [], name := 1061, inputs := [.typed 0 (.path false { segs := [{ ident := 1061 }, { ident := 9 }] })] } }]) = true := by decide +kernel

/-- `rtic/ui/outer_attribute.rs`: error: this lint expectation is unfulfilled -/
example : accepts (expandApp uiSyn uiCode uiTarget 3 [.ident 16, .eq, .ident 1054]
  [.struct [{ path := Path.just 4 }] 1032 (some [{ attrs := [{ path := Path.just 1068, content := .list [] }], rest := { name := 1034, ty := .tuple [] } }]),
   .struct [{ path := Path.just 5 }] 1033 (some []),
   .fn { attrs := [{ path := Path.just 1 }], rest := { attrs := [], name := 1, inputs := [.typed 0 (.path false { segs := [{ ident := 1 }, { ident := 9 }] })], output := .type (.tuple [.path false { segs := [{ ident := 1032 }] }, .path false { segs := [{ ident := 1033 }] }]) } }]) = true := by decide +kernel

/-- `rtic/ui/signal-not-sync.rs`: error[E0277]: `RefCell<u32>` cannot be shared between threads safely -/
example : accepts (expandApp uiSyn uiCode uiTarget 3 [.ident 16, .eq, .ident 1054, .comma, .ident 19, .eq, .bracket [.ident 1056]]
  [.other,
   .other,
   .struct [{ path := Path.just 4 }] 1032 (some []),
   .struct [{ path := Path.just 5 }] 1033 (some [{ attrs := [], rest := { name := 1062, ty := .path false { segs := [{ ident := 1071, args := .angle [.lifetime 10, .other] }] } } }, { attrs := [], rest := { name := 1064, ty := .path false { segs := [{ ident := 1072, args := .angle [.lifetime 10, .other] }] } } }]),
   .other,
   .fn { attrs := [{ path := Path.just 1, content := .list [.ident 5, .eq, .bracket [.ident 1073, .colon, .other 91, .eq, .other 104]] }], rest := { attrs := [], name := 1, inputs := [.typed 0 (.path false { segs := [{ ident := 1 }, { ident := 9 }] })], output := .type (.tuple [.path false { segs := [{ ident := 1032 }] }, .path false { segs := [{ ident := 1033 }] }]) } },
   .fn { attrs := [{ path := Path.just 2, content := .list [.ident 5, .eq, .bracket [.ident 1064, .comma, .ident 1067, .colon, .other 111, .eq, .other 124]] }], rest := { attrs := [], name := 2, inputs := [.typed 0 (.path false { segs := [{ ident := 2 }, { ident := 9 }] })], output := .type (.never) } },
   .fn { attrs := [{ path := Path.just 3, content := .list [.ident 14, .eq, .int 2 false, .comma, .ident 5, .eq, .bracket [.ident 1062]] }], rest := { attrs := [], name := 1061, isAsync := true, inputs := [.typed 0 (.path false { segs := [{ ident := 1061 }, { ident := 9 }] })] } }]) = true := by decide +kernel

/-- `rtic/ui/spawn-local-different-exec.rs`: error[E0609]: no field `local_spawner` on type `__rtic_internal_bar_Context<'_>` -/
example : accepts (expandApp uiSyn uiCode uiTarget 3 [.ident 16, .eq, .ident 1054, .comma, .ident 19, .eq, .bracket [.ident 1055, .comma, .ident 1074]]
  [.struct [{ path := Path.just 4 }] 1032 (some []),
   .struct [{ path := Path.just 5 }] 1033 (some []),
   .fn { attrs := [{ path := Path.just 1 }], rest := { attrs := [], name := 1, inputs := [.typed 0 (.path false { segs := [{ ident := 1 }, { ident := 9 }] })], output := .type (.tuple [.path false { segs := [{ ident := 1032 }] }, .path false { segs := [{ ident := 1033 }] }]) } },
   .fn { attrs := [{ path := Path.just 3, content := .list [.ident 14, .eq, .int 1 false, .comma, .ident 15] }], rest := { attrs := [], name := 1034, isAsync := true, inputs := [.typed 0 (.path false { segs := [{ ident := 1034 }, { ident := 9 }] })] } },
   .fn { attrs := [{ path := Path.just 3, content := .list [.ident 14, .eq, .int 2 false] }], rest := { attrs := [], name := 1039, isAsync := true, inputs := [.typed 0 (.path false { segs := [{ ident := 1039 }, { ident := 9 }] })] } }]) = true := by decide +kernel

/-- `rtic/ui/spawn-local-from-init.rs`: error[E0425]: cannot find function `spawn` in module `foo` -/
example : accepts (expandApp uiSyn uiCode uiTarget 3 [.ident 16, .eq, .ident 1054, .comma, .ident 19, .eq, .bracket [.ident 1055]]
  [.struct [{ path := Path.just 4 }] 1032 (some []),
   .struct [{ path := Path.just 5 }] 1033 (some []),
   .fn { attrs := [{ path := Path.just 1 }], rest := { attrs := [], name := 1, inputs := [.typed 0 (.path false { segs := [{ ident := 1 }, { ident := 9 }] })], output := .type (.tuple [.path false { segs := [{ ident := 1032 }] }, .path false { segs := [{ ident := 1033 }] }]) } },
   .fn { attrs := [{ path := Path.just 3, content := .list [.ident 14, .eq, .int 1 false, .comma, .ident 15] }], rest := { attrs := [], name := 1034, isAsync := true, inputs := [.typed 0 (.path false { segs := [{ ident := 1034 }, { ident := 9 }] })] } }]) = true := by decide +kernel

/-- `rtic/ui/task-priority-too-high.rs`: error[E0080]: evaluation panicked: Maximum priority used by interrupt vector 'I2C0' is more than supported by hardware -/
example : errors (expandApp uiSyn uiCode uiTarget 3 [.ident 16, .eq, .ident 1054]
  [.struct [{ path := Path.just 4 }] 1032 (some []),
   .struct [{ path := Path.just 5 }] 1033 (some []),
   .fn { attrs := [{ path := Path.just 1 }], rest := { attrs := [], name := 1, inputs := [.typed 0 (.path false { segs := [{ ident := 1 }, { ident := 9 }] })], output := .type (.tuple [.path false { segs := [{ ident := 1032 }] }, .path false { segs := [{ ident := 1033 }] }]) } },
   .fn { attrs := [{ path := Path.just 3, content := .list [.ident 13, .eq, .ident 1074, .comma, .ident 14, .eq, .int 1 false] }], rest := { attrs := [], name := 1075, inputs := [.typed 0 (.path false { segs := [{ ident := 1075 }, { ident := 9 }] })] } },
   .fn { attrs := [{ path := Path.just 3, content := .list [.ident 13, .eq, .ident 1076, .comma, .ident 14, .eq, .int 2 false] }], rest := { attrs := [], name := 1077, inputs := [.typed 0 (.path false { segs := [{ ident := 1077 }, { ident := 9 }] })] } },
   .fn { attrs := [{ path := Path.just 3, content := .list [.ident 13, .eq, .ident 1078, .comma, .ident 14, .eq, .int 3 false] }], rest := { attrs := [], name := 1079, inputs := [.typed 0 (.path false { segs := [{ ident := 1079 }, { ident := 9 }] })] } },
   .fn { attrs := [{ path := Path.just 3, content := .list [.ident 13, .eq, .ident 1080, .comma, .ident 14, .eq, .int 4 false] }], rest := { attrs := [], name := 1081, inputs := [.typed 0 (.path false { segs := [{ ident := 1081 }, { ident := 9 }] })] } },
   .fn { attrs := [{ path := Path.just 3, content := .list [.ident 13, .eq, .ident 1082, .comma, .ident 14, .eq, .int 5 false] }], rest := { attrs := [], name := 1083, inputs := [.typed 0 (.path false { segs := [{ ident := 1083 }, { ident := 9 }] })] } },
   .fn { attrs := [{ path := Path.just 3, content := .list [.ident 13, .eq, .ident 1038, .comma, .ident 14, .eq, .int 6 false] }], rest := { attrs := [], name := 1047, inputs := [.typed 0 (.path false { segs := [{ ident := 1047 }, { ident := 9 }] })] } },
   .fn { attrs := [{ path := Path.just 3, content := .list [.ident 13, .eq, .ident 1051, .comma, .ident 14, .eq, .int 7 false] }], rest := { attrs := [], name := 1048, inputs := [.typed 0 (.path false { segs := [{ ident := 1048 }, { ident := 9 }] })] } },
   .fn { attrs := [{ path := Path.just 3, content := .list [.ident 13, .eq, .ident 1055, .comma, .ident 14, .eq, .int 8 false] }], rest := { attrs := [], name := 1084, inputs := [.typed 0 (.path false { segs := [{ ident := 1084 }, { ident := 9 }] })] } },
   .fn { attrs := [{ path := Path.just 3, content := .list [.ident 13, .eq, .ident 1085, .comma, .ident 14, .eq, .int 9 false] }], rest := { attrs := [], name := 1086, inputs := [.typed 0 (.path false { segs := [{ ident := 1086 }, { ident := 9 }] })] } }]) = [.prioRange] := by decide +kernel

/-- `rtic/ui/task-reference-in-spawn.rs`: error[E0521]: borrowed data escapes outside of function -/
example : accepts (expandApp uiSyn uiCode uiTarget 3 [.ident 16, .eq, .ident 1054, .comma, .ident 19, .eq, .bracket [.ident 1055, .comma, .ident 1056, .comma, .ident 1074]]
  [.struct [{ path := Path.just 4 }] 1032 (some []),
   .struct [{ path := Path.just 5 }] 1033 (some []),
   .fn { attrs := [{ path := Path.just 1 }], rest := { attrs := [], name := 1, inputs := [.typed 0 (.path false { segs := [{ ident := 1 }, { ident := 9 }] })], output := .type (.tuple [.path false { segs := [{ ident := 1032 }] }, .path false { segs := [{ ident := 1033 }] }]) } },
   .fn { attrs := [{ path := Path.just 3, content := .list [.ident 14, .eq, .int 2 false] }], rest := { attrs := [], name := 1087, isAsync := true, inputs := [.typed 0 (.path false { segs := [{ ident := 1087 }, { ident := 9 }] })] } },
   .fn { attrs := [{ path := Path.just 3, content := .list [.ident 14, .eq, .int 3 false] }], rest := { attrs := [], name := 1088, isAsync := true, inputs := [.typed 0 (.path false { segs := [{ ident := 1088 }, { ident := 9 }] }), .typed 0 (.other 13)] } }]) = true := by decide +kernel

/-- `rtic/ui/unknown-interrupt.rs`: error[E0599]: no variant, associated function, or constant named `UnknownInterrupt` found for enum `Interrupt` in the current scope -/
example : accepts (expandApp uiSyn uiCode uiTarget 3 [.ident 16, .eq, .ident 1054, .comma, .ident 19, .eq, .bracket [.ident 1089]]
  [.struct [{ path := Path.just 4 }] 1032 (some []),
   .struct [{ path := Path.just 5 }] 1033 (some []),
   .fn { attrs := [{ path := Path.just 1 }], rest := { attrs := [], name := 1, inputs := [.typed 0 (.path false { segs := [{ ident := 1 }, { ident := 9 }] })], output := .type (.tuple [.path false { segs := [{ ident := 1032 }] }, .path false { segs := [{ ident := 1033 }] }]) } }]) = true := by decide +kernel

end Verif.Front.Ui
