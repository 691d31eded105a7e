import Verif.Front.Props

/-!
# The accepted programs of `/repo/examples/lm3s6965`

Generated by `tools/ui.py`. Each module is accepted (the microcontroller has 3 bits of priority).
-/

namespace Verif.Front.Examples
open Verif.Front Verif.Grammar

/-- `async-channel-done.rs` -/
example : accepts (expandApp uiSyn uiCode uiTarget 3 [.ident 16, .eq, .ident 1054, .comma, .ident 19, .eq, .bracket [.ident 1055]]
  [.other,
   .other,
   .struct [{ path := Path.just 4 }] 1032 (some []),
   .struct [{ path := Path.just 5 }] 1033 (some []),
   .other,
   .fn { attrs := [{ path := Path.just 1 }], rest := { attrs := [], name := 1, inputs := [.typed 0 (.path false { segs := [{ ident := 1 }, { ident := 9 }] })], output := .type (.tuple [.path false { segs := [{ ident := 1032 }] }, .path false { segs := [{ ident := 1033 }] }]) } },
   .fn { attrs := [{ path := Path.just 3 }], rest := { attrs := [], name := 1090, isAsync := true, inputs := [.typed 0 (.path false { segs := [{ ident := 1090 }, { ident := 9 }] }), .typed 0 (.path false { segs := [{ ident := 1063, args := .angle [.lifetime 10, .other, .other] }] })] } },
   .fn { attrs := [{ path := Path.just 3 }], rest := { attrs := [], name := 1091, isAsync := true, inputs := [.typed 0 (.path false { segs := [{ ident := 1091 }, { ident := 9 }] }), .typed 0 (.path false { segs := [{ ident := 1065, args := .angle [.lifetime 10, .other, .other] }] })] } },
   .fn { attrs := [{ path := Path.just 3 }], rest := { attrs := [], name := 1092, isAsync := true, inputs := [.typed 0 (.path false { segs := [{ ident := 1092 }, { ident := 9 }] }), .typed 0 (.path false { segs := [{ ident := 1065, args := .angle [.lifetime 10, .other, .other] }] })] } },
   .fn { attrs := [{ path := Path.just 3 }], rest := { attrs := [], name := 1093, isAsync := true, inputs := [.typed 0 (.path false { segs := [{ ident := 1093 }, { ident := 9 }] }), .typed 0 (.path false { segs := [{ ident := 1065, args := .angle [.lifetime 10, .other, .other] }] })] } }]) = true := by decide +kernel

/-- `async-channel-no-receiver.rs` -/
example : accepts (expandApp uiSyn uiCode uiTarget 3 [.ident 16, .eq, .ident 1054, .comma, .ident 19, .eq, .bracket [.ident 1055]]
  [.other,
   .other,
   .struct [{ path := Path.just 4 }] 1032 (some []),
   .struct [{ path := Path.just 5 }] 1033 (some []),
   .other,
   .fn { attrs := [{ path := Path.just 1 }], rest := { attrs := [], name := 1, inputs := [.typed 0 (.path false { segs := [{ ident := 1 }, { ident := 9 }] })], output := .type (.tuple [.path false { segs := [{ ident := 1032 }] }, .path false { segs := [{ ident := 1033 }] }]) } },
   .fn { attrs := [{ path := Path.just 3 }], rest := { attrs := [], name := 1091, isAsync := true, inputs := [.typed 0 (.path false { segs := [{ ident := 1091 }, { ident := 9 }] }), .typed 0 (.path false { segs := [{ ident := 1065, args := .angle [.lifetime 10, .other, .other] }] })] } }]) = true := by decide +kernel

/-- `async-channel-no-sender.rs` -/
example : accepts (expandApp uiSyn uiCode uiTarget 3 [.ident 16, .eq, .ident 1054, .comma, .ident 19, .eq, .bracket [.ident 1055]]
  [.other,
   .other,
   .struct [{ path := Path.just 4 }] 1032 (some []),
   .struct [{ path := Path.just 5 }] 1033 (some []),
   .other,
   .fn { attrs := [{ path := Path.just 1 }], rest := { attrs := [], name := 1, inputs := [.typed 0 (.path false { segs := [{ ident := 1 }, { ident := 9 }] })], output := .type (.tuple [.path false { segs := [{ ident := 1032 }] }, .path false { segs := [{ ident := 1033 }] }]) } },
   .fn { attrs := [{ path := Path.just 3 }], rest := { attrs := [], name := 1090, isAsync := true, inputs := [.typed 0 (.path false { segs := [{ ident := 1090 }, { ident := 9 }] }), .typed 0 (.path false { segs := [{ ident := 1063, args := .angle [.lifetime 10, .other, .other] }] })] } }]) = true := by decide +kernel

/-- `async-channel-try.rs` -/
example : accepts (expandApp uiSyn uiCode uiTarget 3 [.ident 16, .eq, .ident 1054, .comma, .ident 19, .eq, .bracket [.ident 1055]]
  [.other,
   .other,
   .struct [{ path := Path.just 4 }] 1032 (some []),
   .struct [{ path := Path.just 5 }] 1033 (some [{ attrs := [], rest := { name := 1094, ty := .path false { segs := [{ ident := 1065, args := .angle [.lifetime 10, .other, .other] }] } } }]),
   .other,
   .fn { attrs := [{ path := Path.just 1 }], rest := { attrs := [], name := 1, inputs := [.typed 0 (.path false { segs := [{ ident := 1 }, { ident := 9 }] })], output := .type (.tuple [.path false { segs := [{ ident := 1032 }] }, .path false { segs := [{ ident := 1033 }] }]) } },
   .fn { attrs := [{ path := Path.just 3 }], rest := { attrs := [], name := 1090, isAsync := true, inputs := [.typed 0 (.path false { segs := [{ ident := 1090 }, { ident := 9 }] }), .typed 0 (.path false { segs := [{ ident := 1063, args := .angle [.lifetime 10, .other, .other] }] })] } },
   .fn { attrs := [{ path := Path.just 3 }], rest := { attrs := [], name := 1091, isAsync := true, inputs := [.typed 0 (.path false { segs := [{ ident := 1091 }, { ident := 9 }] }), .typed 0 (.path false { segs := [{ ident := 1065, args := .angle [.lifetime 10, .other, .other] }] })] } },
   .fn { attrs := [{ path := Path.just 3, content := .list [.ident 13, .eq, .ident 1074, .comma, .ident 5, .eq, .bracket [.ident 1094]] }], rest := { attrs := [], name := 1095, inputs := [.typed 0 (.path false { segs := [{ ident := 1095 }, { ident := 9 }] })] } }]) = true := by decide +kernel

/-- `async-channel.rs` -/
example : accepts (expandApp uiSyn uiCode uiTarget 3 [.ident 16, .eq, .ident 1054, .comma, .ident 19, .eq, .bracket [.ident 1055]]
  [.other,
   .other,
   .struct [{ path := Path.just 4 }] 1032 (some []),
   .struct [{ path := Path.just 5 }] 1033 (some []),
   .other,
   .fn { attrs := [{ path := Path.just 1 }], rest := { attrs := [], name := 1, inputs := [.typed 0 (.path false { segs := [{ ident := 1 }, { ident := 9 }] })], output := .type (.tuple [.path false { segs := [{ ident := 1032 }] }, .path false { segs := [{ ident := 1033 }] }]) } },
   .fn { attrs := [{ path := Path.just 3 }], rest := { attrs := [], name := 1090, isAsync := true, inputs := [.typed 0 (.path false { segs := [{ ident := 1090 }, { ident := 9 }] }), .typed 0 (.path false { segs := [{ ident := 1063, args := .angle [.lifetime 10, .other, .other] }] })] } },
   .fn { attrs := [{ path := Path.just 3 }], rest := { attrs := [], name := 1091, isAsync := true, inputs := [.typed 0 (.path false { segs := [{ ident := 1091 }, { ident := 9 }] }), .typed 0 (.path false { segs := [{ ident := 1065, args := .angle [.lifetime 10, .other, .other] }] })] } },
   .fn { attrs := [{ path := Path.just 3 }], rest := { attrs := [], name := 1092, isAsync := true, inputs := [.typed 0 (.path false { segs := [{ ident := 1092 }, { ident := 9 }] }), .typed 0 (.path false { segs := [{ ident := 1065, args := .angle [.lifetime 10, .other, .other] }] })] } },
   .fn { attrs := [{ path := Path.just 3 }], rest := { attrs := [], name := 1093, isAsync := true, inputs := [.typed 0 (.path false { segs := [{ ident := 1093 }, { ident := 9 }] }), .typed 0 (.path false { segs := [{ ident := 1065, args := .angle [.lifetime 10, .other, .other] }] })] } }]) = true := by decide +kernel

/-- `async-delay.rs` -/
example : accepts (expandApp uiSyn uiCode uiTarget 3 [.ident 16, .eq, .ident 1054, .comma, .ident 19, .eq, .bracket [.ident 1055, .comma, .ident 1038], .comma, .ident 18, .eq, .bool true]
  [.other,
   .other,
   .other,
   .struct [{ path := Path.just 4 }] 1032 (some []),
   .struct [{ path := Path.just 5 }] 1033 (some []),
   .fn { attrs := [{ path := Path.just 1 }], rest := { attrs := [], name := 1, inputs := [.typed 0 (.path false { segs := [{ ident := 1 }, { ident := 9 }] })], output := .type (.tuple [.path false { segs := [{ ident := 1032 }] }, .path false { segs := [{ ident := 1033 }] }]) } },
   .fn { attrs := [{ path := Path.just 3 }], rest := { attrs := [], name := 1034, isAsync := true, inputs := [.typed 0 (.path false { segs := [{ ident := 1034 }, { ident := 9 }] })] } },
   .fn { attrs := [{ path := Path.just 3 }], rest := { attrs := [], name := 1039, isAsync := true, inputs := [.typed 0 (.path false { segs := [{ ident := 1039 }, { ident := 9 }] })] } },
   .fn { attrs := [{ path := Path.just 3 }], rest := { attrs := [], name := 1096, isAsync := true, inputs := [.typed 0 (.path false { segs := [{ ident := 1096 }, { ident := 9 }] })] } }]) = true := by decide +kernel

/-- `async-task-multiple-prios.rs` -/
example : accepts (expandApp uiSyn uiCode uiTarget 3 [.ident 16, .eq, .ident 1054, .comma, .ident 19, .eq, .bracket [.ident 1055, .comma, .ident 1056]]
  [.other,
   .struct [{ path := Path.just 4 }] 1032 (some [{ attrs := [], rest := { name := 1040, ty := .path false { segs := [{ ident := 1037 }] } } }, { attrs := [], rest := { name := 1044, ty := .path false { segs := [{ ident := 1037 }] } } }]),
   .struct [{ path := Path.just 5 }] 1033 (some []),
   .fn { attrs := [{ path := Path.just 1 }], rest := { attrs := [], name := 1, inputs := [.typed 0 (.path false { segs := [{ ident := 1 }, { ident := 9 }] })], output := .type (.tuple [.path false { segs := [{ ident := 1032 }] }, .path false { segs := [{ ident := 1033 }] }]) } },
   .fn { attrs := [{ path := Path.just 2 }], rest := { attrs := [], name := 2, inputs := [.typed 0 (.path false { segs := [{ ident := 2 }, { ident := 9 }] })], output := .type (.never) } },
   .fn { attrs := [{ path := Path.just 3, content := .list [.ident 14, .eq, .int 1 false, .comma, .ident 4, .eq, .bracket [.ident 1040, .comma, .ident 1044]] }], rest := { attrs := [], name := 1097, isAsync := true, inputs := [.typed 0 (.path false { segs := [{ ident := 1097 }, { ident := 9 }] }), .typed 0 (.path false { segs := [{ ident := 1037 }] })] } },
   .fn { attrs := [{ path := Path.just 3, content := .list [.ident 14, .eq, .int 1 false, .comma, .ident 4, .eq, .bracket [.ident 1040, .comma, .ident 1044]] }], rest := { attrs := [], name := 1098, isAsync := true, inputs := [.typed 0 (.path false { segs := [{ ident := 1098 }, { ident := 9 }] })] } },
   .fn { attrs := [{ path := Path.just 3, content := .list [.ident 14, .eq, .int 2 false, .comma, .ident 4, .eq, .bracket [.ident 1040, .comma, .ident 1044]] }], rest := { attrs := [], name := 1099, isAsync := true, inputs := [.typed 0 (.path false { segs := [{ ident := 1099 }, { ident := 9 }] })] } },
   .fn { attrs := [{ path := Path.just 3, content := .list [.ident 14, .eq, .int 2 false, .comma, .ident 4, .eq, .bracket [.ident 1040, .comma, .ident 1044]] }], rest := { attrs := [], name := 1100, isAsync := true, inputs := [.typed 0 (.path false { segs := [{ ident := 1100 }, { ident := 9 }] })] } }]) = true := by decide +kernel

/-- `async-task.rs` -/
example : accepts (expandApp uiSyn uiCode uiTarget 3 [.ident 16, .eq, .ident 1054, .comma, .ident 19, .eq, .bracket [.ident 1055, .comma, .ident 1038], .comma, .ident 18, .eq, .bool true]
  [.other,
   .struct [{ path := Path.just 4 }] 1032 (some [{ attrs := [], rest := { name := 1040, ty := .path false { segs := [{ ident := 1037 }] } } }]),
   .struct [{ path := Path.just 5 }] 1033 (some []),
   .fn { attrs := [{ path := Path.just 1 }], rest := { attrs := [], name := 1, inputs := [.typed 0 (.path false { segs := [{ ident := 1 }, { ident := 9 }] })], output := .type (.tuple [.path false { segs := [{ ident := 1032 }] }, .path false { segs := [{ ident := 1033 }] }]) } },
   .fn { attrs := [{ path := Path.just 2, content := .list [.ident 4, .eq, .bracket [.ident 1040]] }], rest := { attrs := [], name := 2, inputs := [.typed 0 (.path false { segs := [{ ident := 2 }, { ident := 9 }] })], output := .type (.never) } },
   .fn { attrs := [{ path := Path.just 3, content := .list [.ident 13, .eq, .ident 1051, .comma, .ident 4, .eq, .bracket [.ident 1040]] }], rest := { attrs := [], name := 1095, inputs := [.typed 0 (.path false { segs := [{ ident := 1095 }, { ident := 9 }] })] } },
   .fn { attrs := [{ path := Path.just 3, content := .list [.ident 4, .eq, .bracket [.ident 1040], .comma, .ident 14, .eq, .int 1 false] }], rest := { attrs := [], name := 1101, isAsync := true, inputs := [.typed 0 (.path false { segs := [{ ident := 1101 }, { ident := 9 }] })] } },
   .fn { attrs := [{ path := Path.just 3, content := .list [.ident 14, .eq, .int 1 false] }], rest := { attrs := [], name := 1102, isAsync := true, inputs := [.typed 0 (.path false { segs := [{ ident := 1102 }, { ident := 9 }] }), .typed 0 (.path false { segs := [{ ident := 1037 }] }), .typed 0 (.path false { segs := [{ ident := 1103 }] })] } },
   .fn { attrs := [{ path := Path.just 3, content := .list [.ident 14, .eq, .int 2 false, .comma, .ident 4, .eq, .bracket [.ident 1040]] }], rest := { attrs := [], name := 1098, isAsync := true, inputs := [.typed 0 (.path false { segs := [{ ident := 1098 }, { ident := 9 }] })] } }]) = true := by decide +kernel

/-- `async-timeout.rs` -/
example : accepts (expandApp uiSyn uiCode uiTarget 3 [.ident 16, .eq, .ident 1054, .comma, .ident 19, .eq, .bracket [.ident 1055, .comma, .ident 1038], .comma, .ident 18, .eq, .bool true]
  [.other,
   .other,
   .struct [{ path := Path.just 4 }] 1032 (some []),
   .struct [{ path := Path.just 5 }] 1033 (some []),
   .fn { attrs := [{ path := Path.just 1 }], rest := { attrs := [], name := 1, inputs := [.typed 0 (.path false { segs := [{ ident := 1 }, { ident := 9 }] })], output := .type (.tuple [.path false { segs := [{ ident := 1032 }] }, .path false { segs := [{ ident := 1033 }] }]) } },
   .fn { attrs := [{ path := Path.just 3 }], rest := { attrs := [], name := 1034, isAsync := true, inputs := [.typed 0 (.path false { segs := [{ ident := 1034 }, { ident := 9 }] })] } }]) = true := by decide +kernel

/-- `async-watch-uninitialized.rs` -/
example : accepts (expandApp uiSyn uiCode uiTarget 3 [.ident 16, .eq, .ident 1054, .comma, .ident 19, .eq, .bracket [.ident 1055]]
  [.other,
   .other,
   .struct [{ path := Path.just 4 }] 1032 (some []),
   .struct [{ path := Path.just 5 }] 1033 (some []),
   .fn { attrs := [{ path := Path.just 1 }], rest := { attrs := [], name := 1, inputs := [.typed 0 (.path false { segs := [{ ident := 1 }, { ident := 9 }] })], output := .type (.tuple [.path false { segs := [{ ident := 1032 }] }, .path false { segs := [{ ident := 1033 }] }]) } },
   .fn { attrs := [{ path := Path.just 3 }], rest := { attrs := [], name := 1090, isAsync := true, inputs := [.typed 0 (.path false { segs := [{ ident := 1090 }, { ident := 9 }] }), .typed 0 (.path false { segs := [{ ident := 1104, args := .angle [.lifetime 10, .other] }] })] } }]) = true := by decide +kernel

/-- `async-watch.rs` -/
example : accepts (expandApp uiSyn uiCode uiTarget 3 [.ident 16, .eq, .ident 1054, .comma, .ident 19, .eq, .bracket [.ident 1055]]
  [.other,
   .other,
   .struct [{ path := Path.just 4 }] 1032 (some []),
   .struct [{ path := Path.just 5 }] 1033 (some []),
   .fn { attrs := [{ path := Path.just 1 }], rest := { attrs := [], name := 1, inputs := [.typed 0 (.path false { segs := [{ ident := 1 }, { ident := 9 }] })], output := .type (.tuple [.path false { segs := [{ ident := 1032 }] }, .path false { segs := [{ ident := 1033 }] }]) } },
   .fn { attrs := [{ path := Path.just 3 }], rest := { attrs := [], name := 1090, isAsync := true, inputs := [.typed 0 (.path false { segs := [{ ident := 1090 }, { ident := 9 }] }), .typed 0 (.path false { segs := [{ ident := 1104, args := .angle [.lifetime 10, .other] }] })] } },
   .fn { attrs := [{ path := Path.just 3 }], rest := { attrs := [], name := 1094, isAsync := true, inputs := [.typed 0 (.path false { segs := [{ ident := 1094 }, { ident := 9 }] }), .typed 0 (.path false { segs := [{ ident := 1105, args := .angle [.lifetime 10, .other] }] })] } }]) = true := by decide +kernel

/-- `big-struct-opt.rs` -/
example : accepts (expandApp uiSyn uiCode uiTarget 3 [.ident 16, .eq, .ident 1054, .comma, .ident 19, .eq, .bracket [.ident 1055]]
  [.other,
   .other,
   .other,
   .other,
   .struct [{ path := Path.just 4 }] 1032 (some [{ attrs := [], rest := { name := 1106, ty := .other 14 } }]),
   .struct [{ path := Path.just 5 }] 1033 (some []),
   .fn { attrs := [{ path := Path.just 1, content := .list [.ident 5, .eq, .bracket [.ident 1107, .colon, .other 151, .eq, .other 164]] }], rest := { attrs := [], name := 1, inputs := [.typed 0 (.path false { segs := [{ ident := 1 }, { ident := 9 }] })], output := .type (.tuple [.path false { segs := [{ ident := 1032 }] }, .path false { segs := [{ ident := 1033 }] }]) } },
   .fn { attrs := [{ path := Path.just 2 }], rest := { attrs := [], name := 2, inputs := [.typed 0 (.path false { segs := [{ ident := 2 }, { ident := 9 }] })], output := .type (.never) } },
   .fn { attrs := [{ path := Path.just 3, content := .list [.ident 13, .eq, .ident 1038, .comma, .ident 4, .eq, .bracket [.ident 1106]] }], rest := { attrs := [], name := 1047, inputs := [.typed 0 (.path false { segs := [{ ident := 1047 }, { ident := 9 }] })] } },
   .fn { attrs := [{ path := Path.just 3, content := .list [.ident 4, .eq, .bracket [.ident 1106], .comma, .ident 14, .eq, .int 2 false] }], rest := { attrs := [], name := 1101, isAsync := true, inputs := [.typed 0 (.path false { segs := [{ ident := 1101 }, { ident := 9 }] })] } }]) = true := by decide +kernel

/-- `binds.rs` -/
example : accepts (expandApp uiSyn uiCode uiTarget 3 [.ident 16, .eq, .ident 1054]
  [.other,
   .other,
   .struct [{ path := Path.just 4 }] 1032 (some []),
   .struct [{ path := Path.just 5 }] 1033 (some []),
   .fn { attrs := [{ path := Path.just 1 }], rest := { attrs := [], name := 1, inputs := [.typed 0 (.path false { segs := [{ ident := 1 }, { ident := 9 }] })], output := .type (.tuple [.path false { segs := [{ ident := 1032 }] }, .path false { segs := [{ ident := 1033 }] }]) } },
   .fn { attrs := [{ path := Path.just 2 }], rest := { attrs := [], name := 2, inputs := [.typed 0 (.path false { segs := [{ ident := 2 }, { ident := 9 }] })], output := .type (.never) } },
   .fn { attrs := [{ path := Path.just 3, content := .list [.ident 13, .eq, .ident 1038, .comma, .ident 5, .eq, .bracket [.ident 1108, .colon, .ident 1037, .eq, .int 0 false]] }], rest := { attrs := [], name := 1034, inputs := [.typed 0 (.path false { segs := [{ ident := 1034 }, { ident := 9 }] })] } }]) = true := by decide +kernel

/-- `common.rs` -/
example : accepts (expandApp uiSyn uiCode uiTarget 3 [.ident 16, .eq, .ident 1054, .comma, .ident 19, .eq, .bracket [.ident 1038, .comma, .ident 1051]]
  [.other,
   .struct [{ path := Path.just 4 }] 1032 (some []),
   .struct [{ path := Path.just 5 }] 1033 (some [{ attrs := [], rest := { name := 1109, ty := .path false { segs := [{ ident := 1110 }] } } }, { attrs := [], rest := { name := 1111, ty := .path false { segs := [{ ident := 1110 }] } } }, { attrs := [], rest := { name := 1112, ty := .path false { segs := [{ ident := 1110 }] } } }]),
   .fn { attrs := [{ path := Path.just 1 }], rest := { attrs := [], name := 1, inputs := [.typed 0 (.path false { segs := [{ ident := 1 }, { ident := 9 }] })], output := .type (.tuple [.path false { segs := [{ ident := 1032 }] }, .path false { segs := [{ ident := 1033 }] }]) } },
   .fn { attrs := [{ path := Path.just 2, content := .list [.ident 5, .eq, .bracket [.ident 1112]] }], rest := { attrs := [], name := 2, inputs := [.typed 0 (.path false { segs := [{ ident := 2 }, { ident := 9 }] })], output := .type (.never) } },
   .fn { attrs := [{ path := Path.just 3, content := .list [.ident 5, .eq, .bracket [.ident 1109], .comma, .ident 14, .eq, .int 1 false] }], rest := { attrs := [], name := 1034, isAsync := true, inputs := [.typed 0 (.path false { segs := [{ ident := 1034 }, { ident := 9 }] })] } },
   .fn { attrs := [{ path := Path.just 3, content := .list [.ident 5, .eq, .bracket [.ident 1111], .comma, .ident 14, .eq, .int 1 false] }], rest := { attrs := [], name := 1039, isAsync := true, inputs := [.typed 0 (.path false { segs := [{ ident := 1039 }, { ident := 9 }] })] } }]) = true := by decide +kernel

/-- `complex.rs` -/
example : accepts (expandApp uiSyn uiCode uiTarget 3 [.ident 16, .eq, .ident 1054]
  [.other,
   .other,
   .struct [{ path := Path.just 4 }] 1032 (some [{ attrs := [], rest := { name := 1113, ty := .path false { segs := [{ ident := 1037 }] } } }, { attrs := [], rest := { name := 1114, ty := .path false { segs := [{ ident := 1037 }] } } }, { attrs := [], rest := { name := 1115, ty := .path false { segs := [{ ident := 1037 }] } } }]),
   .struct [{ path := Path.just 5 }] 1033 (some []),
   .fn { attrs := [{ path := Path.just 1 }], rest := { attrs := [], name := 1, inputs := [.typed 0 (.path false { segs := [{ ident := 1 }, { ident := 9 }] })], output := .type (.tuple [.path false { segs := [{ ident := 1032 }] }, .path false { segs := [{ ident := 1033 }] }]) } },
   .fn { attrs := [{ path := Path.just 2, content := .list [.ident 4, .eq, .bracket [.ident 1113, .comma, .ident 1114]] }], rest := { attrs := [], name := 2, inputs := [.typed 0 (.path false { segs := [{ ident := 2 }, { ident := 9 }] })], output := .type (.never) } },
   .fn { attrs := [{ path := Path.just 3, content := .list [.ident 13, .eq, .ident 1074, .comma, .ident 14, .eq, .int 2 false, .comma, .ident 5, .eq, .bracket [.ident 1108, .colon, .ident 1037, .eq, .int 0 false], .comma, .ident 4, .eq, .bracket [.ident 1113, .comma, .ident 1114]] }], rest := { attrs := [], name := 1116, inputs := [.typed 0 (.path false { segs := [{ ident := 1116 }, { ident := 9 }] })] } },
   .fn { attrs := [{ path := Path.just 3, content := .list [.ident 13, .eq, .ident 1076, .comma, .ident 14, .eq, .int 3 false, .comma, .ident 5, .eq, .bracket [.ident 1108, .colon, .ident 1037, .eq, .int 0 false], .comma, .ident 4, .eq, .bracket [.ident 1114, .comma, .ident 1115]] }], rest := { attrs := [], name := 1117, inputs := [.typed 0 (.path false { segs := [{ ident := 1117 }, { ident := 9 }] })] } },
   .fn { attrs := [{ path := Path.just 3, content := .list [.ident 13, .eq, .ident 1078, .comma, .ident 14, .eq, .int 4 false, .comma, .ident 5, .eq, .bracket [.ident 1108, .colon, .ident 1037, .eq, .int 0 false], .comma, .ident 4, .eq, .bracket [.ident 1115]] }], rest := { attrs := [], name := 1118, inputs := [.typed 0 (.path false { segs := [{ ident := 1118 }, { ident := 9 }] })] } }]) = true := by decide +kernel

/-- `declared_locals.rs` -/
example : accepts (expandApp uiSyn uiCode uiTarget 3 [.ident 16, .eq, .ident 1054]
  [.other,
   .struct [{ path := Path.just 4 }] 1032 (some []),
   .struct [{ path := Path.just 5 }] 1033 (some []),
   .fn { attrs := [{ path := Path.just 1, content := .list [.ident 5, .eq, .bracket [.ident 1040, .colon, .ident 1037, .eq, .int 0 false]] }], rest := { attrs := [], name := 1, inputs := [.typed 0 (.path false { segs := [{ ident := 1 }, { ident := 9 }] })], output := .type (.tuple [.path false { segs := [{ ident := 1032 }] }, .path false { segs := [{ ident := 1033 }] }]) } },
   .fn { attrs := [{ path := Path.just 2, content := .list [.ident 5, .eq, .bracket [.ident 1040, .colon, .ident 1037, .eq, .int 0 false]] }], rest := { attrs := [], name := 2, inputs := [.typed 0 (.path false { segs := [{ ident := 2 }, { ident := 9 }] })], output := .type (.never) } },
   .fn { attrs := [{ path := Path.just 3, content := .list [.ident 13, .eq, .ident 1038, .comma, .ident 5, .eq, .bracket [.ident 1040, .colon, .ident 1037, .eq, .int 0 false]] }], rest := { attrs := [], name := 1034, inputs := [.typed 0 (.path false { segs := [{ ident := 1034 }, { ident := 9 }] })] } }]) = true := by decide +kernel

/-- `destructure.rs` -/
example : accepts (expandApp uiSyn uiCode uiTarget 3 [.ident 16, .eq, .ident 1054, .comma, .ident 19, .eq, .bracket [.ident 1038]]
  [.other,
   .struct [{ path := Path.just 4 }] 1032 (some [{ attrs := [], rest := { name := 1040, ty := .path false { segs := [{ ident := 1037 }] } } }, { attrs := [], rest := { name := 1044, ty := .path false { segs := [{ ident := 1037 }] } } }, { attrs := [], rest := { name := 1067, ty := .path false { segs := [{ ident := 1037 }] } } }]),
   .struct [{ path := Path.just 5 }] 1033 (some []),
   .fn { attrs := [{ path := Path.just 1 }], rest := { attrs := [], name := 1, inputs := [.typed 0 (.path false { segs := [{ ident := 1 }, { ident := 9 }] })], output := .type (.tuple [.path false { segs := [{ ident := 1032 }] }, .path false { segs := [{ ident := 1033 }] }]) } },
   .fn { attrs := [{ path := Path.just 2 }], rest := { attrs := [], name := 2, inputs := [.typed 0 (.path false { segs := [{ ident := 2 }, { ident := 9 }] })], output := .type (.never) } },
   .fn { attrs := [{ path := Path.just 3, content := .list [.ident 4, .eq, .bracket [.amp, .ident 1040, .comma, .amp, .ident 1044, .comma, .amp, .ident 1067], .comma, .ident 14, .eq, .int 1 false] }], rest := { attrs := [], name := 1034, isAsync := true, inputs := [.typed 0 (.path false { segs := [{ ident := 1034 }, { ident := 9 }] })] } },
   .fn { attrs := [{ path := Path.just 3, content := .list [.ident 4, .eq, .bracket [.amp, .ident 1040, .comma, .amp, .ident 1044, .comma, .amp, .ident 1067], .comma, .ident 14, .eq, .int 1 false] }], rest := { attrs := [], name := 1039, isAsync := true, inputs := [.typed 0 (.path false { segs := [{ ident := 1039 }, { ident := 9 }] })] } }]) = true := by decide +kernel

/-- `extern_binds.rs` -/
example : accepts (expandApp uiSyn uiCode uiTarget 3 [.ident 16, .eq, .ident 1054]
  [.other,
   .struct [{ path := Path.just 4 }] 1032 (some []),
   .struct [{ path := Path.just 5 }] 1033 (some []),
   .foreign { name := (some 12) } [.fn { attrs := [{ path := Path.just 1 }], rest := { attrs := [], name := 1, inputs := [.typed 0 (.path false { segs := [{ ident := 1 }, { ident := 9 }] })], output := .type (.tuple [.path false { segs := [{ ident := 1032 }] }, .path false { segs := [{ ident := 1033 }] }]) } }, .fn { attrs := [{ path := Path.just 2 }], rest := { attrs := [], name := 2, inputs := [.typed 0 (.path false { segs := [{ ident := 2 }, { ident := 9 }] })], output := .type (.never) } }, .fn { attrs := [{ path := Path.just 3, content := .list [.ident 13, .eq, .ident 1038] }], rest := { attrs := [], name := 1034, inputs := [.typed 0 (.path false { segs := [{ ident := 1034 }, { ident := 9 }] })] } }]]) = true := by decide +kernel

/-- `extern_spawn.rs` -/
example : accepts (expandApp uiSyn uiCode uiTarget 3 [.ident 16, .eq, .ident 1054, .comma, .ident 19, .eq, .bracket [.ident 1055]]
  [.other,
   .struct [{ path := Path.just 4 }] 1032 (some []),
   .struct [{ path := Path.just 5 }] 1033 (some []),
   .fn { attrs := [{ path := Path.just 1 }], rest := { attrs := [], name := 1, inputs := [.typed 0 (.path false { segs := [{ ident := 1 }, { ident := 9 }] })], output := .type (.tuple [.path false { segs := [{ ident := 1032 }] }, .path false { segs := [{ ident := 1033 }] }]) } },
   .foreign { name := (some 12) } [.fn { attrs := [{ path := Path.just 3, content := .list [] }], rest := { attrs := [], name := 1034, isAsync := true, inputs := [.typed 0 (.path false { segs := [{ ident := 1034 }, { ident := 9 }] })] } }]]) = true := by decide +kernel

/-- `generics.rs` -/
example : accepts (expandApp uiSyn uiCode uiTarget 3 [.ident 16, .eq, .ident 1054]
  [.other,
   .other,
   .struct [{ path := Path.just 4 }] 1032 (some [{ attrs := [], rest := { name := 4, ty := .path false { segs := [{ ident := 1037 }] } } }]),
   .struct [{ path := Path.just 5 }] 1033 (some []),
   .fn { attrs := [{ path := Path.just 1 }], rest := { attrs := [], name := 1, inputs := [.typed 0 (.path false { segs := [{ ident := 1 }, { ident := 9 }] })], output := .type (.tuple [.path false { segs := [{ ident := 1032 }] }, .path false { segs := [{ ident := 1033 }] }]) } },
   .fn { attrs := [{ path := Path.just 3, content := .list [.ident 13, .eq, .ident 1038, .comma, .ident 4, .eq, .bracket [.ident 4], .comma, .ident 5, .eq, .bracket [.ident 1119, .colon, .ident 1037, .eq, .int 0 false]] }], rest := { attrs := [], name := 1047, inputs := [.typed 0 (.path false { segs := [{ ident := 1047 }, { ident := 9 }] })] } },
   .fn { attrs := [{ path := Path.just 3, content := .list [.ident 13, .eq, .ident 1051, .comma, .ident 14, .eq, .int 2 false, .comma, .ident 4, .eq, .bracket [.ident 4], .comma, .ident 5, .eq, .bracket [.ident 1119, .colon, .ident 1037, .eq, .int 0 false]] }], rest := { attrs := [], name := 1048, inputs := [.typed 0 (.path false { segs := [{ ident := 1048 }, { ident := 9 }] })] } }]) = true := by decide +kernel

/-- `hardware.rs` -/
example : accepts (expandApp uiSyn uiCode uiTarget 3 [.ident 16, .eq, .ident 1054]
  [.other,
   .other,
   .struct [{ path := Path.just 4 }] 1032 (some []),
   .struct [{ path := Path.just 5 }] 1033 (some []),
   .fn { attrs := [{ path := Path.just 1 }], rest := { attrs := [], name := 1, inputs := [.typed 0 (.path false { segs := [{ ident := 1 }, { ident := 9 }] })], output := .type (.tuple [.path false { segs := [{ ident := 1032 }] }, .path false { segs := [{ ident := 1033 }] }]) } },
   .fn { attrs := [{ path := Path.just 2 }], rest := { attrs := [], name := 2, inputs := [.typed 0 (.path false { segs := [{ ident := 2 }, { ident := 9 }] })], output := .type (.never) } },
   .fn { attrs := [{ path := Path.just 3, content := .list [.ident 13, .eq, .ident 1038, .comma, .ident 5, .eq, .bracket [.ident 1108, .colon, .ident 1037, .eq, .int 0 false]] }], rest := { attrs := [], name := 1047, inputs := [.typed 0 (.path false { segs := [{ ident := 1047 }, { ident := 9 }] })] } }]) = true := by decide +kernel

/-- `idle-wfi.rs` -/
example : accepts (expandApp uiSyn uiCode uiTarget 3 [.ident 16, .eq, .ident 1054]
  [.other,
   .struct [{ path := Path.just 4 }] 1032 (some []),
   .struct [{ path := Path.just 5 }] 1033 (some []),
   .fn { attrs := [{ path := Path.just 1 }], rest := { attrs := [], name := 1, inputs := [.typed 0 (.path false { segs := [{ ident := 1 }, { ident := 9 }] })], output := .type (.tuple [.path false { segs := [{ ident := 1032 }] }, .path false { segs := [{ ident := 1033 }] }]) } },
   .fn { attrs := [{ path := Path.just 2, content := .list [.ident 5, .eq, .bracket [.ident 1057, .colon, .ident 1037, .eq, .int 0 false]] }], rest := { attrs := [], name := 2, inputs := [.typed 0 (.path false { segs := [{ ident := 2 }, { ident := 9 }] })], output := .type (.never) } }]) = true := by decide +kernel

/-- `idle.rs` -/
example : accepts (expandApp uiSyn uiCode uiTarget 3 [.ident 16, .eq, .ident 1054]
  [.other,
   .struct [{ path := Path.just 4 }] 1032 (some []),
   .struct [{ path := Path.just 5 }] 1033 (some []),
   .fn { attrs := [{ path := Path.just 1 }], rest := { attrs := [], name := 1, inputs := [.typed 0 (.path false { segs := [{ ident := 1 }, { ident := 9 }] })], output := .type (.tuple [.path false { segs := [{ ident := 1032 }] }, .path false { segs := [{ ident := 1033 }] }]) } },
   .fn { attrs := [{ path := Path.just 2, content := .list [.ident 5, .eq, .bracket [.ident 1057, .colon, .ident 1037, .eq, .int 0 false]] }], rest := { attrs := [], name := 2, inputs := [.typed 0 (.path false { segs := [{ ident := 2 }, { ident := 9 }] })], output := .type (.never) } }]) = true := by decide +kernel

/-- `init.rs` -/
example : accepts (expandApp uiSyn uiCode uiTarget 3 [.ident 16, .eq, .ident 1054, .comma, .ident 18, .eq, .bool true]
  [.other,
   .struct [{ path := Path.just 4 }] 1032 (some []),
   .struct [{ path := Path.just 5 }] 1033 (some []),
   .fn { attrs := [{ path := Path.just 1, content := .list [.ident 5, .eq, .bracket [.ident 1057, .colon, .ident 1037, .eq, .int 0 false]] }], rest := { attrs := [], name := 1, inputs := [.typed 0 (.path false { segs := [{ ident := 1 }, { ident := 9 }] })], output := .type (.tuple [.path false { segs := [{ ident := 1032 }] }, .path false { segs := [{ ident := 1033 }] }]) } }]) = true := by decide +kernel

/-- `locals.rs` -/
example : accepts (expandApp uiSyn uiCode uiTarget 3 [.ident 16, .eq, .ident 1054, .comma, .ident 19, .eq, .bracket [.ident 1038, .comma, .ident 1051]]
  [.other,
   .struct [{ path := Path.just 4 }] 1032 (some []),
   .struct [{ path := Path.just 5 }] 1033 (some [{ attrs := [], rest := { name := 1109, ty := .path false { segs := [{ ident := 1110 }] } } }, { attrs := [], rest := { name := 1111, ty := .path false { segs := [{ ident := 1110 }] } } }, { attrs := [], rest := { name := 1112, ty := .path false { segs := [{ ident := 1110 }] } } }]),
   .fn { attrs := [{ path := Path.just 1 }], rest := { attrs := [], name := 1, inputs := [.typed 0 (.path false { segs := [{ ident := 1 }, { ident := 9 }] })], output := .type (.tuple [.path false { segs := [{ ident := 1032 }] }, .path false { segs := [{ ident := 1033 }] }]) } },
   .fn { attrs := [{ path := Path.just 2, content := .list [.ident 5, .eq, .bracket [.ident 1112]] }], rest := { attrs := [], name := 2, inputs := [.typed 0 (.path false { segs := [{ ident := 2 }, { ident := 9 }] })], output := .type (.never) } },
   .fn { attrs := [{ path := Path.just 3, content := .list [.ident 5, .eq, .bracket [.ident 1109], .comma, .ident 14, .eq, .int 1 false] }], rest := { attrs := [], name := 1034, isAsync := true, inputs := [.typed 0 (.path false { segs := [{ ident := 1034 }, { ident := 9 }] })] } },
   .fn { attrs := [{ path := Path.just 3, content := .list [.ident 5, .eq, .bracket [.ident 1111], .comma, .ident 14, .eq, .int 1 false] }], rest := { attrs := [], name := 1039, isAsync := true, inputs := [.typed 0 (.path false { segs := [{ ident := 1039 }, { ident := 9 }] })] } }]) = true := by decide +kernel

/-- `lock-free.rs` -/
example : accepts (expandApp uiSyn uiCode uiTarget 3 [.ident 16, .eq, .ident 1054]
  [.other,
   .other,
   .struct [{ path := Path.just 4 }] 1032 (some [{ attrs := [{ path := Path.just 8 }], rest := { name := 1120, ty := .path false { segs := [{ ident := 1121 }] } } }]),
   .struct [{ path := Path.just 5 }] 1033 (some []),
   .fn { attrs := [{ path := Path.just 1 }], rest := { attrs := [], name := 1, inputs := [.typed 0 (.path false { segs := [{ ident := 1 }, { ident := 9 }] })], output := .type (.tuple [.path false { segs := [{ ident := 1032 }] }, .path false { segs := [{ ident := 1033 }] }]) } },
   .fn { attrs := [{ path := Path.just 3, content := .list [.ident 13, .eq, .ident 1038, .comma, .ident 4, .eq, .bracket [.ident 1120]] }], rest := { attrs := [], name := 1034, inputs := [.typed 0 (.path false { segs := [{ ident := 1034 }, { ident := 9 }] })] } },
   .fn { attrs := [{ path := Path.just 3, content := .list [.ident 13, .eq, .ident 1051, .comma, .ident 4, .eq, .bracket [.ident 1120]] }], rest := { attrs := [], name := 1039, inputs := [.typed 0 (.path false { segs := [{ ident := 1039 }, { ident := 9 }] })] } }]) = true := by decide +kernel

/-- `lock.rs` -/
example : accepts (expandApp uiSyn uiCode uiTarget 3 [.ident 16, .eq, .ident 1054, .comma, .ident 19, .eq, .bracket [.ident 1074, .comma, .ident 1076, .comma, .ident 1078]]
  [.other,
   .struct [{ path := Path.just 4 }] 1032 (some [{ attrs := [], rest := { name := 4, ty := .path false { segs := [{ ident := 1037 }] } } }]),
   .struct [{ path := Path.just 5 }] 1033 (some []),
   .fn { attrs := [{ path := Path.just 1 }], rest := { attrs := [], name := 1, inputs := [.typed 0 (.path false { segs := [{ ident := 1 }, { ident := 9 }] })], output := .type (.tuple [.path false { segs := [{ ident := 1032 }] }, .path false { segs := [{ ident := 1033 }] }]) } },
   .fn { attrs := [{ path := Path.just 3, content := .list [.ident 4, .eq, .bracket [.ident 4]] }], rest := { attrs := [], name := 1034, isAsync := true, inputs := [.typed 0 (.path false { segs := [{ ident := 1034 }, { ident := 9 }] })] } },
   .fn { attrs := [{ path := Path.just 3, content := .list [.ident 14, .eq, .int 2 false, .comma, .ident 4, .eq, .bracket [.ident 4]] }], rest := { attrs := [], name := 1039, isAsync := true, inputs := [.typed 0 (.path false { segs := [{ ident := 1039 }, { ident := 9 }] })] } },
   .fn { attrs := [{ path := Path.just 3, content := .list [.ident 14, .eq, .int 3 false] }], rest := { attrs := [], name := 1096, isAsync := true, inputs := [.typed 0 (.path false { segs := [{ ident := 1096 }, { ident := 9 }] })] } }]) = true := by decide +kernel

/-- `multilock.rs` -/
example : accepts (expandApp uiSyn uiCode uiTarget 3 [.ident 16, .eq, .ident 1054, .comma, .ident 19, .eq, .bracket [.ident 1074]]
  [.other,
   .struct [{ path := Path.just 4 }] 1032 (some [{ attrs := [], rest := { name := 1122, ty := .path false { segs := [{ ident := 1037 }] } } }, { attrs := [], rest := { name := 1123, ty := .path false { segs := [{ ident := 1037 }] } } }, { attrs := [], rest := { name := 1124, ty := .path false { segs := [{ ident := 1037 }] } } }]),
   .struct [{ path := Path.just 5 }] 1033 (some []),
   .fn { attrs := [{ path := Path.just 1 }], rest := { attrs := [], name := 1, inputs := [.typed 0 (.path false { segs := [{ ident := 1 }, { ident := 9 }] })], output := .type (.tuple [.path false { segs := [{ ident := 1032 }] }, .path false { segs := [{ ident := 1033 }] }]) } },
   .fn { attrs := [{ path := Path.just 3, content := .list [.ident 4, .eq, .bracket [.ident 1122, .comma, .ident 1123, .comma, .ident 1124]] }], rest := { attrs := [], name := 1125, isAsync := true, inputs := [.typed 0 (.path false { segs := [{ ident := 1125 }, { ident := 9 }] })] } }]) = true := by decide +kernel

/-- `not-sync.rs` -/
example : accepts (expandApp uiSyn uiCode uiTarget 3 [.ident 16, .eq, .ident 1054, .comma, .ident 19, .eq, .bracket [.ident 1055]]
  [.other,
   .other,
   .other,
   .struct [{ path := Path.just 4 }] 1032 (some [{ attrs := [], rest := { name := 4, ty := .path false { segs := [{ ident := 1126 }] } } }]),
   .struct [{ path := Path.just 5 }] 1033 (some []),
   .fn { attrs := [{ path := Path.just 1 }], rest := { attrs := [], name := 1, inputs := [.typed 0 (.path false { segs := [{ ident := 1 }, { ident := 9 }] })], output := .type (.tuple [.path false { segs := [{ ident := 1032 }] }, .path false { segs := [{ ident := 1033 }] }]) } },
   .fn { attrs := [{ path := Path.just 2 }], rest := { attrs := [], name := 2, inputs := [.typed 0 (.path false { segs := [{ ident := 2 }, { ident := 9 }] })], output := .type (.never) } },
   .fn { attrs := [{ path := Path.just 3, content := .list [.ident 4, .eq, .bracket [.amp, .ident 4], .comma, .ident 14, .eq, .int 1 false] }], rest := { attrs := [], name := 1034, isAsync := true, inputs := [.typed 0 (.path false { segs := [{ ident := 1034 }, { ident := 9 }] })] } },
   .fn { attrs := [{ path := Path.just 3, content := .list [.ident 4, .eq, .bracket [.amp, .ident 4], .comma, .ident 14, .eq, .int 1 false] }], rest := { attrs := [], name := 1039, isAsync := true, inputs := [.typed 0 (.path false { segs := [{ ident := 1039 }, { ident := 9 }] })] } }]) = true := by decide +kernel

/-- `only-shared-access.rs` -/
example : accepts (expandApp uiSyn uiCode uiTarget 3 [.ident 16, .eq, .ident 1054, .comma, .ident 19, .eq, .bracket [.ident 1038, .comma, .ident 1051]]
  [.other,
   .struct [{ path := Path.just 4 }] 1032 (some [{ attrs := [], rest := { name := 1127, ty := .path false { segs := [{ ident := 1037 }] } } }]),
   .struct [{ path := Path.just 5 }] 1033 (some []),
   .fn { attrs := [{ path := Path.just 1 }], rest := { attrs := [], name := 1, inputs := [.typed 0 (.path false { segs := [{ ident := 1 }, { ident := 9 }] })], output := .type (.tuple [.path false { segs := [{ ident := 1032 }] }, .path false { segs := [{ ident := 1033 }] }]) } },
   .fn { attrs := [{ path := Path.just 3, content := .list [.ident 4, .eq, .bracket [.amp, .ident 1127]] }], rest := { attrs := [], name := 1034, isAsync := true, inputs := [.typed 0 (.path false { segs := [{ ident := 1034 }, { ident := 9 }] })] } },
   .fn { attrs := [{ path := Path.just 3, content := .list [.ident 14, .eq, .int 2 false, .comma, .ident 4, .eq, .bracket [.amp, .ident 1127]] }], rest := { attrs := [], name := 1039, isAsync := true, inputs := [.typed 0 (.path false { segs := [{ ident := 1039 }, { ident := 9 }] })] } }]) = true := by decide +kernel

/-- `peripherals-taken.rs` -/
example : accepts (expandApp uiSyn uiCode uiTarget 3 [.ident 16, .eq, .ident 1054]
  [.other,
   .struct [{ path := Path.just 4 }] 1032 (some []),
   .struct [{ path := Path.just 5 }] 1033 (some []),
   .fn { attrs := [{ path := Path.just 1 }], rest := { attrs := [], name := 1, inputs := [.typed 0 (.path false { segs := [{ ident := 1 }, { ident := 9 }] })], output := .type (.tuple [.path false { segs := [{ ident := 1032 }] }, .path false { segs := [{ ident := 1033 }] }]) } }]) = true := by decide +kernel

/-- `pool.rs` -/
example : accepts (expandApp uiSyn uiCode uiTarget 3 [.ident 16, .eq, .ident 1054]
  [.other,
   .struct [{ path := Path.just 4 }] 1032 (some []),
   .struct [{ path := Path.just 5 }] 1033 (some []),
   .fn { attrs := [{ path := Path.just 1 }], rest := { attrs := [], name := 1, inputs := [.typed 0 (.path false { segs := [{ ident := 1 }, { ident := 9 }] })], output := .type (.tuple [.path false { segs := [{ ident := 1032 }] }, .path false { segs := [{ ident := 1033 }] }]) } }]) = true := by decide +kernel

/-- `pool.rs` -/
example : accepts (expandApp uiSyn uiCode uiTarget 3 [.ident 16, .eq, .ident 1054, .comma, .ident 19, .eq, .bracket [.ident 1055, .comma, .ident 1056]]
  [.other,
   .other,
   .other,
   .other,
   .struct [{ path := Path.just 4 }] 1032 (some []),
   .struct [{ path := Path.just 5 }] 1033 (some []),
   .other,
   .fn { attrs := [{ path := Path.just 1, content := .list [.ident 5, .eq, .bracket [.ident 1128, .colon, .other 170, .eq, .other 184]] }], rest := { attrs := [], name := 1, inputs := [.typed 0 (.path false { segs := [{ ident := 1 }, { ident := 9 }] })], output := .type (.tuple [.path false { segs := [{ ident := 1032 }] }, .path false { segs := [{ ident := 1033 }] }]) } },
   .fn { attrs := [{ path := Path.just 3, content := .list [.ident 13, .eq, .ident 1085, .comma, .ident 14, .eq, .int 2 false] }], rest := { attrs := [], name := 1086, inputs := [.typed 0 (.path false { segs := [{ ident := 1086 }, { ident := 9 }] })] } },
   .fn { attrs := [{ path := Path.just 3 }], rest := { attrs := [], name := 1034, isAsync := true, inputs := [.typed 0 (.path false { segs := [{ ident := 1034 }, { ident := 9 }] }), .typed 0 (.path false { segs := [{ ident := 1129, args := .angle [.other] }] })] } },
   .fn { attrs := [{ path := Path.just 3, content := .list [.ident 14, .eq, .int 2 false] }], rest := { attrs := [], name := 1039, isAsync := true, inputs := [.typed 0 (.path false { segs := [{ ident := 1039 }, { ident := 9 }] }), .typed 0 (.path false { segs := [{ ident := 1129, args := .angle [.other] }] })] } }]) = true := by decide +kernel

/-- `preempt.rs` -/
example : accepts (expandApp uiSyn uiCode uiTarget 3 [.ident 16, .eq, .ident 1054, .comma, .ident 19, .eq, .bracket [.ident 1055, .comma, .ident 1056]]
  [.other,
   .struct [{ path := Path.just 4 }] 1032 (some []),
   .struct [{ path := Path.just 5 }] 1033 (some []),
   .fn { attrs := [{ path := Path.just 1 }], rest := { attrs := [], name := 1, inputs := [.typed 0 (.path false { segs := [{ ident := 1 }, { ident := 9 }] })], output := .type (.tuple [.path false { segs := [{ ident := 1032 }] }, .path false { segs := [{ ident := 1033 }] }]) } },
   .fn { attrs := [{ path := Path.just 3, content := .list [.ident 14, .eq, .int 1 false] }], rest := { attrs := [], name := 1034, isAsync := true, inputs := [.typed 0 (.path false { segs := [{ ident := 1034 }, { ident := 9 }] })] } },
   .fn { attrs := [{ path := Path.just 3, content := .list [.ident 14, .eq, .int 2 false] }], rest := { attrs := [], name := 1039, isAsync := true, inputs := [.typed 0 (.path false { segs := [{ ident := 1039 }, { ident := 9 }] })] } },
   .fn { attrs := [{ path := Path.just 3, content := .list [.ident 14, .eq, .int 2 false] }], rest := { attrs := [], name := 1096, isAsync := true, inputs := [.typed 0 (.path false { segs := [{ ident := 1096 }, { ident := 9 }] })] } }]) = true := by decide +kernel

/-- `prio-inversion.rs` -/
example : accepts (expandApp uiSyn uiCode uiTarget 3 [.ident 16, .eq, .ident 1054, .comma, .ident 19, .eq, .bracket [.ident 1055, .comma, .ident 1056, .comma, .ident 1074, .comma, .ident 1076]]
  [.other,
   .struct [{ path := Path.just 4 }] 1032 (some [{ attrs := [], rest := { name := 1040, ty := .path false { segs := [{ ident := 1037 }] } } }, { attrs := [], rest := { name := 1044, ty := .path false { segs := [{ ident := 1037 }] } } }]),
   .struct [{ path := Path.just 5 }] 1033 (some []),
   .fn { attrs := [{ path := Path.just 1 }], rest := { attrs := [], name := 1, inputs := [.typed 0 (.path false { segs := [{ ident := 1 }, { ident := 9 }] })], output := .type (.tuple [.path false { segs := [{ ident := 1032 }] }, .path false { segs := [{ ident := 1033 }] }]) } },
   .fn { attrs := [{ path := Path.just 3, content := .list [.ident 14, .eq, .int 1 false, .comma, .ident 4, .eq, .bracket [.ident 1040, .comma, .ident 1044]] }], rest := { attrs := [], name := 1034, isAsync := true, inputs := [.typed 0 (.path false { segs := [{ ident := 1034 }, { ident := 9 }] })] } },
   .fn { attrs := [{ path := Path.just 3, content := .list [.ident 14, .eq, .int 2 false, .comma, .ident 4, .eq, .bracket [.ident 1040]] }], rest := { attrs := [], name := 1039, isAsync := true, inputs := [.typed 0 (.path false { segs := [{ ident := 1039 }, { ident := 9 }] })] } },
   .fn { attrs := [{ path := Path.just 3, content := .list [.ident 14, .eq, .int 3 false] }], rest := { attrs := [], name := 1096, isAsync := true, inputs := [.typed 0 (.path false { segs := [{ ident := 1096 }, { ident := 9 }] })] } },
   .fn { attrs := [{ path := Path.just 3, content := .list [.ident 14, .eq, .int 4 false, .comma, .ident 4, .eq, .bracket [.ident 1044]] }], rest := { attrs := [], name := 1130, isAsync := true, inputs := [.typed 0 (.path false { segs := [{ ident := 1130 }, { ident := 9 }] })] } }]) = true := by decide +kernel

/-- `ramfunc.rs` -/
example : accepts (expandApp uiSyn uiCode uiTarget 3 [.ident 16, .eq, .ident 1054, .comma, .ident 19, .eq, .bracket [.ident 1038, .comma, .attr { path := Path.just 1131 }, .ident 1051]]
  [.other,
   .struct [{ path := Path.just 4 }] 1032 (some []),
   .struct [{ path := Path.just 5 }] 1033 (some []),
   .fn { attrs := [{ path := Path.just 1 }], rest := { attrs := [], name := 1, inputs := [.typed 0 (.path false { segs := [{ ident := 1 }, { ident := 9 }] })], output := .type (.tuple [.path false { segs := [{ ident := 1032 }] }, .path false { segs := [{ ident := 1033 }] }]) } },
   .fn { attrs := [{ path := Path.just 1132, content := .list [] }, { path := Path.just 3 }], rest := { attrs := [], name := 1034, isAsync := true, inputs := [.typed 0 (.path false { segs := [{ ident := 1034 }, { ident := 9 }] })] } },
   .fn { attrs := [{ path := Path.just 1132, content := .list [] }, { path := Path.just 1131, content := .nameValue }, { path := Path.just 3, content := .list [.ident 14, .eq, .int 2 false] }], rest := { attrs := [], name := 1039, isAsync := true, inputs := [.typed 0 (.path false { segs := [{ ident := 1039 }, { ident := 9 }] })] } }]) = true := by decide +kernel

/-- `resource-user-struct.rs` -/
example : accepts (expandApp uiSyn uiCode uiTarget 3 [.ident 16, .eq, .ident 1054]
  [.other,
   .other,
   .struct [{ path := Path.just 4 }] 1032 (some [{ attrs := [], rest := { name := 4, ty := .path false { segs := [{ ident := 1037 }] } } }]),
   .struct [{ path := Path.just 1133, content := .list [] }] 1134 (some [{ attrs := [], rest := { name := 4, ty := .path false { segs := [{ ident := 1037 }] } } }]),
   .struct [{ path := Path.just 5 }] 1033 (some []),
   .fn { attrs := [{ path := Path.just 1 }], rest := { attrs := [], name := 1, inputs := [.typed 0 (.path false { segs := [{ ident := 1 }, { ident := 9 }] })], output := .type (.tuple [.path false { segs := [{ ident := 1032 }] }, .path false { segs := [{ ident := 1033 }] }]) } },
   .fn { attrs := [{ path := Path.just 2 }], rest := { attrs := [], name := 2, inputs := [.typed 0 (.path false { segs := [{ ident := 2 }, { ident := 9 }] })], output := .type (.never) } },
   .fn { attrs := [{ path := Path.just 3, content := .list [.ident 13, .eq, .ident 1038, .comma, .ident 4, .eq, .bracket [.ident 4]] }], rest := { attrs := [], name := 1047, inputs := [.typed 0 (.path false { segs := [{ ident := 1047 }, { ident := 9 }] })] } },
   .fn { attrs := [{ path := Path.just 3, content := .list [.ident 13, .eq, .ident 1051, .comma, .ident 4, .eq, .bracket [.ident 4]] }], rest := { attrs := [], name := 1048, inputs := [.typed 0 (.path false { segs := [{ ident := 1048 }, { ident := 9 }] })] } }]) = true := by decide +kernel

/-- `shared.rs` -/
example : accepts (expandApp uiSyn uiCode uiTarget 3 [.ident 16, .eq, .ident 1054]
  [.other,
   .other,
   .other,
   .struct [{ path := Path.just 4 }] 1032 (some [{ attrs := [], rest := { name := 1135, ty := .path false { segs := [{ ident := 1136, args := .angle [.lifetime 10, .other, .other] }] } } }, { attrs := [], rest := { name := 1067, ty := .path false { segs := [{ ident := 1137, args := .angle [.lifetime 10, .other, .other] }] } } }]),
   .struct [{ path := Path.just 5 }] 1033 (some []),
   .fn { attrs := [{ path := Path.just 1, content := .list [.ident 5, .eq, .bracket [.ident 1138, .colon, .other 191, .eq, .other 204]] }], rest := { attrs := [], name := 1, inputs := [.typed 0 (.path false { segs := [{ ident := 1 }, { ident := 9 }] })], output := .type (.tuple [.path false { segs := [{ ident := 1032 }] }, .path false { segs := [{ ident := 1033 }] }]) } },
   .fn { attrs := [{ path := Path.just 2, content := .list [.ident 4, .eq, .bracket [.ident 1067]] }], rest := { attrs := [], name := 2, inputs := [.typed 0 (.path false { segs := [{ ident := 2 }, { ident := 9 }] })], output := .type (.never) } },
   .fn { attrs := [{ path := Path.just 3, content := .list [.ident 13, .eq, .ident 1038, .comma, .ident 4, .eq, .bracket [.ident 1135]] }], rest := { attrs := [], name := 1047, inputs := [.typed 0 (.path false { segs := [{ ident := 1047 }, { ident := 9 }] })] } }]) = true := by decide +kernel

/-- `smallest.rs` -/
example : accepts (expandApp uiSyn uiCode uiTarget 3 [.ident 16, .eq, .ident 1054]
  [.other,
   .struct [{ path := Path.just 4 }] 1032 (some []),
   .struct [{ path := Path.just 5 }] 1033 (some []),
   .fn { attrs := [{ path := Path.just 1 }], rest := { attrs := [], name := 1, inputs := [.typed 0 (.path false { segs := [{ ident := 1 }, { ident := 9 }] })], output := .type (.tuple [.path false { segs := [{ ident := 1032 }] }, .path false { segs := [{ ident := 1033 }] }]) } }]) = true := by decide +kernel

/-- `spawn.rs` -/
example : accepts (expandApp uiSyn uiCode uiTarget 3 [.ident 16, .eq, .ident 1054, .comma, .ident 19, .eq, .bracket [.ident 1055]]
  [.other,
   .struct [{ path := Path.just 4 }] 1032 (some []),
   .struct [{ path := Path.just 5 }] 1033 (some []),
   .fn { attrs := [{ path := Path.just 1 }], rest := { attrs := [], name := 1, inputs := [.typed 0 (.path false { segs := [{ ident := 1 }, { ident := 9 }] })], output := .type (.tuple [.path false { segs := [{ ident := 1032 }] }, .path false { segs := [{ ident := 1033 }] }]) } },
   .fn { attrs := [{ path := Path.just 3 }], rest := { attrs := [], name := 1034, isAsync := true, inputs := [.typed 0 (.path false { segs := [{ ident := 1034 }, { ident := 9 }] })] } }]) = true := by decide +kernel

/-- `spawn_arguments.rs` -/
example : accepts (expandApp uiSyn uiCode uiTarget 3 [.ident 16, .eq, .ident 1054, .comma, .ident 19, .eq, .bracket [.ident 1055]]
  [.other,
   .struct [{ path := Path.just 4 }] 1032 (some []),
   .struct [{ path := Path.just 5 }] 1033 (some []),
   .fn { attrs := [{ path := Path.just 1 }], rest := { attrs := [], name := 1, inputs := [.typed 0 (.path false { segs := [{ ident := 1 }, { ident := 9 }] })], output := .type (.tuple [.path false { segs := [{ ident := 1032 }] }, .path false { segs := [{ ident := 1033 }] }]) } },
   .fn { attrs := [{ path := Path.just 3 }], rest := { attrs := [], name := 1034, isAsync := true, inputs := [.typed 0 (.path false { segs := [{ ident := 1034 }, { ident := 9 }] }), .typed 0 (.path false { segs := [{ ident := 1103 }] }), .typed 0 (.path false { segs := [{ ident := 1037 }] })] } }]) = true := by decide +kernel

/-- `spawn_err.rs` -/
example : accepts (expandApp uiSyn uiCode uiTarget 3 [.ident 16, .eq, .ident 1054, .comma, .ident 19, .eq, .bracket [.ident 1055]]
  [.other,
   .struct [{ path := Path.just 4 }] 1032 (some []),
   .struct [{ path := Path.just 5 }] 1033 (some []),
   .fn { attrs := [{ path := Path.just 1 }], rest := { attrs := [], name := 1, inputs := [.typed 0 (.path false { segs := [{ ident := 1 }, { ident := 9 }] })], output := .type (.tuple [.path false { segs := [{ ident := 1032 }] }, .path false { segs := [{ ident := 1033 }] }]) } },
   .fn { attrs := [{ path := Path.just 3 }], rest := { attrs := [], name := 1034, isAsync := true, inputs := [.typed 0 (.path false { segs := [{ ident := 1034 }, { ident := 9 }] })] } }]) = true := by decide +kernel

/-- `spawn_local.rs` -/
example : accepts (expandApp uiSyn uiCode uiTarget 3 [.ident 16, .eq, .ident 1054, .comma, .ident 19, .eq, .bracket [.ident 1055]]
  [.other,
   .other,
   .struct [{ path := Path.just 4 }] 1032 (some []),
   .struct [{ path := Path.just 5 }] 1033 (some []),
   .fn { attrs := [{ path := Path.just 1 }], rest := { attrs := [], name := 1, inputs := [.typed 0 (.path false { segs := [{ ident := 1 }, { ident := 9 }] })], output := .type (.tuple [.path false { segs := [{ ident := 1032 }] }, .path false { segs := [{ ident := 1033 }] }]) } },
   .fn { attrs := [{ path := Path.just 3, content := .list [.ident 14, .eq, .int 1 false] }], rest := { attrs := [], name := 1052, isAsync := true, inputs := [.typed 0 (.path false { segs := [{ ident := 1052 }, { ident := 9 }] })] } },
   .fn { attrs := [{ path := Path.just 3, content := .list [.ident 15, .eq, .bool true, .comma, .ident 14, .eq, .int 1 false] }], rest := { attrs := [], name := 1139, isAsync := true, inputs := [.typed 0 (.path false { segs := [{ ident := 1139 }, { ident := 9 }] }), .typed 0 (.path false { segs := [{ ident := 1140 }] })] } }]) = true := by decide +kernel

/-- `spawn_loop.rs` -/
example : accepts (expandApp uiSyn uiCode uiTarget 3 [.ident 16, .eq, .ident 1054, .comma, .ident 19, .eq, .bracket [.ident 1055]]
  [.other,
   .struct [{ path := Path.just 4 }] 1032 (some []),
   .struct [{ path := Path.just 5 }] 1033 (some []),
   .fn { attrs := [{ path := Path.just 1 }], rest := { attrs := [], name := 1, inputs := [.typed 0 (.path false { segs := [{ ident := 1 }, { ident := 9 }] })], output := .type (.tuple [.path false { segs := [{ ident := 1032 }] }, .path false { segs := [{ ident := 1033 }] }]) } },
   .fn { attrs := [{ path := Path.just 2 }], rest := { attrs := [], name := 2, inputs := [.typed 0 (.path false { segs := [{ ident := 2 }, { ident := 9 }] })], output := .type (.never) } },
   .fn { attrs := [{ path := Path.just 3, content := .list [.ident 14, .eq, .int 1 false] }], rest := { attrs := [], name := 1034, isAsync := true, inputs := [.typed 0 (.path false { segs := [{ ident := 1034 }, { ident := 9 }] })] } }]) = true := by decide +kernel

/-- `static-exec.rs` -/
example : accepts (expandApp uiSyn uiCode uiTarget 3 [.ident 16, .eq, .ident 1054, .comma, .ident 19, .eq, .bracket [.ident 1055, .comma, .ident 1038]]
  [.other,
   .other,
   .struct [{ path := Path.just 4 }] 1032 (some []),
   .struct [{ path := Path.just 5 }] 1033 (some []),
   .fn { attrs := [{ path := Path.just 1 }], rest := { attrs := [], name := 1, inputs := [.typed 0 (.path false { segs := [{ ident := 1 }, { ident := 9 }] })], output := .type (.tuple [.path false { segs := [{ ident := 1032 }] }, .path false { segs := [{ ident := 1033 }] }]) } },
   .fn { attrs := [{ path := Path.just 3 }], rest := { attrs := [], name := 1141, isAsync := true, inputs := [.typed 0 (.path false { segs := [{ ident := 1141 }, { ident := 9 }] })] } },
   .fn { attrs := [{ path := Path.just 3 }], rest := { attrs := [], name := 1142, isAsync := true, inputs := [.typed 0 (.path false { segs := [{ ident := 1142 }, { ident := 9 }] }), .typed 0 (.path false { segs := [{ ident := 1037 }] }), .typed 0 (.path false { segs := [{ ident := 1042 }] }), .typed 0 (.path false { segs := [{ ident := 1041 }] })] } },
   .fn { attrs := [{ path := Path.just 3, content := .list [.ident 14, .eq, .int 2 false] }], rest := { attrs := [], name := 1143, isAsync := true, inputs := [.typed 0 (.path false { segs := [{ ident := 1143 }, { ident := 9 }] })] } },
   .foreign { name := (some 12) } [.fn { attrs := [{ path := Path.just 3 }], rest := { attrs := [], name := 1144, isAsync := true, inputs := [.typed 0 (.path false { segs := [{ ident := 1144 }, { ident := 9 }] })] } }, .fn { attrs := [{ path := Path.just 3 }], rest := { attrs := [], name := 1145, isAsync := true, inputs := [.typed 0 (.path false { segs := [{ ident := 1145 }, { ident := 9 }] })], output := .type (.never) } }]]) = true := by decide +kernel

/-- `static-resources-in-divergent.rs` -/
example : accepts (expandApp uiSyn uiCode uiTarget 3 [.ident 16, .eq, .ident 1054, .comma, .ident 19, .eq, .bracket [.ident 1038]]
  [.other,
   .other,
   .other,
   .struct [{ path := Path.just 4 }] 1032 (some []),
   .struct [{ path := Path.just 5 }] 1033 (some []),
   .fn { attrs := [{ path := Path.just 1 }], rest := { attrs := [], name := 1, inputs := [.typed 0 (.path false { segs := [{ ident := 1 }, { ident := 9 }] })], output := .type (.tuple [.path false { segs := [{ ident := 1032 }] }, .path false { segs := [{ ident := 1033 }] }]) } },
   .fn { attrs := [{ path := Path.just 3, content := .list [.ident 5, .eq, .bracket [.ident 1138, .colon, .other 211, .eq, .other 224], .comma, .ident 14, .eq, .int 1 false] }], rest := { attrs := [], name := 1146, isAsync := true, inputs := [.typed 0 (.path false { segs := [{ ident := 1146 }, { ident := 9 }] })], output := .type (.never) } },
   .fn { attrs := [{ path := Path.just 3, content := .list [.ident 14, .eq, .int 1 false] }], rest := { attrs := [], name := 1039, isAsync := true, inputs := [.typed 0 (.path false { segs := [{ ident := 1039 }, { ident := 9 }] }), .typed 0 (.path false { segs := [{ ident := 1063, args := .angle [.lifetime 10, .other, .other] }] })], output := .type (.never) } }]) = true := by decide +kernel

/-- `static-resources-in-init.rs` -/
example : accepts (expandApp uiSyn uiCode uiTarget 3 [.ident 16, .eq, .ident 1054, .comma, .ident 19, .eq, .bracket [.ident 1038]]
  [.other,
   .other,
   .struct [{ path := Path.just 4 }] 1032 (some []),
   .struct [{ path := Path.just 5 }] 1033 (some [{ attrs := [], rest := { name := 1135, ty := .path false { segs := [{ ident := 1136, args := .angle [.lifetime 10, .other, .other] }] } } }, { attrs := [], rest := { name := 1067, ty := .path false { segs := [{ ident := 1137, args := .angle [.lifetime 10, .other, .other] }] } } }]),
   .fn { attrs := [{ path := Path.just 1, content := .list [.ident 5, .eq, .bracket [.ident 1138, .colon, .other 231, .eq, .other 244]] }], rest := { attrs := [], name := 1, inputs := [.typed 0 (.path false { segs := [{ ident := 1 }, { ident := 9 }] })], output := .type (.tuple [.path false { segs := [{ ident := 1032 }] }, .path false { segs := [{ ident := 1033 }] }]) } },
   .fn { attrs := [{ path := Path.just 2, content := .list [.ident 5, .eq, .bracket [.ident 1067]] }], rest := { attrs := [], name := 2, inputs := [.typed 0 (.path false { segs := [{ ident := 2 }, { ident := 9 }] })], output := .type (.never) } },
   .fn { attrs := [{ path := Path.just 3, content := .list [.ident 5, .eq, .bracket [.ident 1135, .comma, .ident 1119, .colon, .ident 1037, .eq, .int 0 false], .comma, .ident 14, .eq, .int 1 false] }], rest := { attrs := [], name := 1034, isAsync := true, inputs := [.typed 0 (.path false { segs := [{ ident := 1034 }, { ident := 9 }] })] } }]) = true := by decide +kernel

/-- `t-binds.rs` -/
example : accepts (expandApp uiSyn uiCode uiTarget 3 [.ident 16, .eq, .ident 1054]
  [.other,
   .struct [{ path := Path.just 4 }] 1032 (some []),
   .struct [{ path := Path.just 5 }] 1033 (some []),
   .fn { attrs := [{ path := Path.just 1 }], rest := { attrs := [], name := 1, inputs := [.typed 0 (.path false { segs := [{ ident := 1 }, { ident := 9 }] })], output := .type (.tuple [.path false { segs := [{ ident := 1032 }] }, .path false { segs := [{ ident := 1033 }] }]) } },
   .fn { attrs := [{ path := Path.just 3, content := .list [.ident 13, .eq, .ident 901] }], rest := { attrs := [], name := 1034, inputs := [.typed 0 (.path false { segs := [{ ident := 1034 }, { ident := 9 }] })] } },
   .fn { attrs := [{ path := Path.just 3, content := .list [.ident 13, .eq, .ident 1038] }], rest := { attrs := [], name := 1039, inputs := [.typed 0 (.path false { segs := [{ ident := 1039 }, { ident := 9 }] })] } }]) = true := by decide +kernel

/-- `t-cfg-resources.rs` -/
example : accepts (expandApp uiSyn uiCode uiTarget 3 [.ident 16, .eq, .ident 1054]
  [.other,
   .struct [{ path := Path.just 4 }] 1032 (some [{ attrs := [{ path := Path.just 6, content := .list [] }], rest := { name := 1057, ty := .path false { segs := [{ ident := 1037 }] } } }]),
   .struct [{ path := Path.just 5 }] 1033 (some []),
   .fn { attrs := [{ path := Path.just 1 }], rest := { attrs := [], name := 1, inputs := [.typed 0 (.path false { segs := [{ ident := 1 }, { ident := 9 }] })], output := .type (.tuple [.path false { segs := [{ ident := 1032 }] }, .path false { segs := [{ ident := 1033 }] }]) } },
   .fn { attrs := [{ path := Path.just 2 }], rest := { attrs := [], name := 2, inputs := [.typed 0 (.path false { segs := [{ ident := 2 }, { ident := 9 }] })], output := .type (.never) } }]) = true := by decide +kernel

/-- `t-cfg-tasks.rs` -/
example : accepts (expandApp uiSyn uiCode uiTarget 3 [.ident 16, .eq, .ident 1054, .comma, .ident 19, .eq, .bracket [.ident 1055]]
  [.other,
   .struct [{ path := Path.just 4 }] 1032 (some []),
   .struct [{ path := Path.just 5 }] 1033 (some []),
   .fn { attrs := [{ path := Path.just 1 }], rest := { attrs := [], name := 1, inputs := [.typed 0 (.path false { segs := [{ ident := 1 }, { ident := 9 }] })], output := .type (.tuple [.path false { segs := [{ ident := 1032 }] }, .path false { segs := [{ ident := 1033 }] }]) } },
   .fn { attrs := [{ path := Path.just 6, content := .list [] }, { path := Path.just 3 }], rest := { attrs := [], name := 1147, isAsync := true, inputs := [.typed 0 (.path false { segs := [{ ident := 1147 }, { ident := 9 }] })] } },
   .fn { attrs := [{ path := Path.just 6, content := .list [] }, { path := Path.just 3, content := .list [.ident 13, .eq, .ident 1038] }], rest := { attrs := [], name := 1148, inputs := [.typed 0 (.path false { segs := [{ ident := 1148 }, { ident := 9 }] })] } }]) = true := by decide +kernel

/-- `t-htask-main.rs` -/
example : accepts (expandApp uiSyn uiCode uiTarget 3 [.ident 16, .eq, .ident 1054]
  [.other,
   .struct [{ path := Path.just 4 }] 1032 (some []),
   .struct [{ path := Path.just 5 }] 1033 (some []),
   .fn { attrs := [{ path := Path.just 1 }], rest := { attrs := [], name := 1, inputs := [.typed 0 (.path false { segs := [{ ident := 1 }, { ident := 9 }] })], output := .type (.tuple [.path false { segs := [{ ident := 1032 }] }, .path false { segs := [{ ident := 1033 }] }]) } },
   .fn { attrs := [{ path := Path.just 3, content := .list [.ident 13, .eq, .ident 1038] }], rest := { attrs := [], name := 1149, inputs := [.typed 0 (.path false { segs := [{ ident := 1149 }, { ident := 9 }] })] } }]) = true := by decide +kernel

/-- `t-idle-main.rs` -/
example : accepts (expandApp uiSyn uiCode uiTarget 3 [.ident 16, .eq, .ident 1054]
  [.other,
   .struct [{ path := Path.just 4 }] 1032 (some []),
   .struct [{ path := Path.just 5 }] 1033 (some []),
   .fn { attrs := [{ path := Path.just 1 }], rest := { attrs := [], name := 1, inputs := [.typed 0 (.path false { segs := [{ ident := 1 }, { ident := 9 }] })], output := .type (.tuple [.path false { segs := [{ ident := 1032 }] }, .path false { segs := [{ ident := 1033 }] }]) } },
   .fn { attrs := [{ path := Path.just 2 }], rest := { attrs := [], name := 1149, inputs := [.typed 0 (.path false { segs := [{ ident := 1149 }, { ident := 9 }] })], output := .type (.never) } }]) = true := by decide +kernel

/-- `t-late-not-send.rs` -/
example : accepts (expandApp uiSyn uiCode uiTarget 3 [.ident 16, .eq, .ident 1054]
  [.other,
   .other,
   .other,
   .struct [{ path := Path.just 4 }] 1032 (some [{ attrs := [], rest := { name := 1057, ty := .path false { segs := [{ ident := 1150 }] } } }, { attrs := [], rest := { name := 1059, ty := .path false { segs := [{ ident := 1151, args := .angle [.other] }] } } }]),
   .struct [{ path := Path.just 5 }] 1033 (some []),
   .fn { attrs := [{ path := Path.just 1 }], rest := { attrs := [], name := 1, inputs := [.typed 0 (.path false { segs := [{ ident := 1 }, { ident := 9 }] })], output := .type (.tuple [.path false { segs := [{ ident := 1032 }] }, .path false { segs := [{ ident := 1033 }] }]) } },
   .fn { attrs := [{ path := Path.just 2, content := .list [.ident 4, .eq, .bracket [.ident 1057, .comma, .ident 1059]] }], rest := { attrs := [], name := 2, inputs := [.typed 0 (.path false { segs := [{ ident := 2 }, { ident := 9 }] })], output := .type (.never) } }]) = true := by decide +kernel

/-- `task.rs` -/
example : accepts (expandApp uiSyn uiCode uiTarget 3 [.ident 16, .eq, .ident 1054, .comma, .ident 19, .eq, .bracket [.ident 1055, .comma, .ident 1056]]
  [.other,
   .struct [{ path := Path.just 4 }] 1032 (some []),
   .struct [{ path := Path.just 5 }] 1033 (some []),
   .fn { attrs := [{ path := Path.just 1 }], rest := { attrs := [], name := 1, inputs := [.typed 0 (.path false { segs := [{ ident := 1 }, { ident := 9 }] })], output := .type (.tuple [.path false { segs := [{ ident := 1032 }] }, .path false { segs := [{ ident := 1033 }] }]) } },
   .fn { attrs := [{ path := Path.just 3 }], rest := { attrs := [], name := 1034, isAsync := true, inputs := [.typed 0 (.path false { segs := [{ ident := 1034 }, { ident := 9 }] })] } },
   .fn { attrs := [{ path := Path.just 3 }], rest := { attrs := [], name := 1039, isAsync := true, inputs := [.typed 0 (.path false { segs := [{ ident := 1039 }, { ident := 9 }] })] } },
   .fn { attrs := [{ path := Path.just 3, content := .list [.ident 14, .eq, .int 2 false] }], rest := { attrs := [], name := 1096, isAsync := true, inputs := [.typed 0 (.path false { segs := [{ ident := 1096 }, { ident := 9 }] })] } }]) = true := by decide +kernel

/-- `wait-queue.rs` -/
example : accepts (expandApp uiSyn uiCode uiTarget 3 [.ident 16, .eq, .ident 1054, .comma, .ident 19, .eq, .bracket [.ident 1074]]
  [.other,
   .other,
   .other,
   .other,
   .struct [{ path := Path.just 4 }] 1032 (some [{ attrs := [], rest := { name := 1152, ty := .path false { segs := [{ ident := 1037 }] } } }]),
   .struct [{ path := Path.just 5 }] 1033 (some []),
   .fn { attrs := [{ path := Path.just 1, content := .list [.ident 5, .eq, .bracket [.ident 1153, .colon, .ident 1154, .eq, .other 254]] }], rest := { attrs := [], name := 1, inputs := [.typed 0 (.path false { segs := [{ ident := 1 }, { ident := 9 }] })], output := .type (.tuple [.path false { segs := [{ ident := 1032 }] }, .path false { segs := [{ ident := 1033 }] }]) } },
   .fn { attrs := [{ path := Path.just 3, content := .list [.ident 4, .eq, .bracket [.ident 1152]] }], rest := { attrs := [], name := 1155, isAsync := true, inputs := [.typed 0 (.path false { segs := [{ ident := 1155 }, { ident := 9 }] }), .typed 0 (.other 26)] } },
   .fn { attrs := [{ path := Path.just 3, content := .list [.ident 4, .eq, .bracket [.ident 1152]] }], rest := { attrs := [], name := 1156, isAsync := true, inputs := [.typed 0 (.path false { segs := [{ ident := 1156 }, { ident := 9 }] }), .typed 0 (.other 27)] } }]) = true := by decide +kernel

/-- `zero-prio-task.rs` -/
example : accepts (expandApp uiSyn uiCode uiTarget 3 [.ident 16, .eq, .ident 1054, .comma, .ident 18, .eq, .bool true]
  [.other,
   .other,
   .other,
   .struct [{ path := Path.just 4 }] 1032 (some [{ attrs := [], rest := { name := 1057, ty := .path false { segs := [{ ident := 1150 }] } } }]),
   .struct [{ path := Path.just 5 }] 1033 (some [{ attrs := [], rest := { name := 1059, ty := .path false { segs := [{ ident := 1150 }] } } }]),
   .fn { attrs := [{ path := Path.just 1 }], rest := { attrs := [], name := 1, inputs := [.typed 0 (.path false { segs := [{ ident := 1 }, { ident := 9 }] })], output := .type (.tuple [.path false { segs := [{ ident := 1032 }] }, .path false { segs := [{ ident := 1033 }] }]) } },
   .fn { attrs := [{ path := Path.just 3, content := .list [.ident 14, .eq, .int 0 false, .comma, .ident 4, .eq, .bracket [.ident 1057], .comma, .ident 5, .eq, .bracket [.ident 1059]] }], rest := { attrs := [], name := 1101, isAsync := true, inputs := [.typed 0 (.path false { segs := [{ ident := 1101 }, { ident := 9 }] })] } },
   .fn { attrs := [{ path := Path.just 3, content := .list [.ident 14, .eq, .int 0 false, .comma, .ident 4, .eq, .bracket [.ident 1057]] }], rest := { attrs := [], name := 1098, isAsync := true, inputs := [.typed 0 (.path false { segs := [{ ident := 1098 }, { ident := 9 }] })] } }]) = true := by decide +kernel

end Verif.Front.Examples
