/-!
# Selection of the target

Model of the Cargo features and build scripts by which a user selects the target: `rtic/Cargo.toml`, `rtic/build.rs`, `rtic/src/export.rs`,
`rtic-macros/Cargo.toml`, `rtic-macros/build.rs`, `rtic-macros/src/codegen/bindings.rs` and `rtic-macros/src/syntax/backend.rs`. Strings are lists of characters.

Cargo itself is not modelled but for two documented facts: a build script sees one environment variable for every enabled feature of its package (in some order, among other variables),
its name in upper case with `_` for `-` after `CARGO_FEATURE_`; and a build fails if a build script prints a `cargo::error`.
-/

namespace Verif.Build

abbrev Str := List Char

/-- `str::strip_prefix`. -/
def stripPrefix : Str → Str → Option Str
  | [], s => some s
  | _ :: _, [] => none
  | c :: p, d :: s => if c = d then stripPrefix p s else none

/-- `str::ends_with`. -/
def endsWith (s suffix : Str) : Bool := decide (suffix = s.drop (s.length - suffix.length)) && decide (suffix.length ≤ s.length)

/-- `to_lowercase` (of ASCII letters). -/
def lower (c : Char) : Char :=
  if 'A'.toNat ≤ c.toNat ∧ c.toNat ≤ 'Z'.toNat then Char.ofNat (c.toNat + 32) else c

/-- `f.to_lowercase().replace("_", "-")`, `rtic/build.rs:7`, `rtic-macros/build.rs:4`. -/
def featureName (s : Str) : Str := s.map fun c => if lower c = '_' then '-' else lower c

/-- Cargo's name for the variable of a feature. -/
def envVar (f : Str) : Str :=
  "CARGO_FEATURE_".toList ++ f.map fun c => if c = '-' then '_' else if 'a'.toNat ≤ c.toNat ∧ c.toNat ≤ 'z'.toNat then Char.ofNat (c.toNat - 32) else c

/-- The features of `rtic`, `rtic/Cargo.toml:55-77`. -/
inductive Feature where
  | default | thumbv6 | thumbv7 | thumbv8base | thumbv8main | esp32c3 | esp32c6 | clint | mecall
deriving DecidableEq, Repr

/-- Their names, `rtic/Cargo.toml:56-77`. -/
def Feature.name : Feature → Str
  | .default => "default".toList
  | .thumbv6 => "thumbv6-backend".toList
  | .thumbv7 => "thumbv7-backend".toList
  | .thumbv8base => "thumbv8base-backend".toList
  | .thumbv8main => "thumbv8main-backend".toList
  | .esp32c3 => "riscv-esp32c3-backend".toList
  | .esp32c6 => "riscv-esp32c6-backend".toList
  | .clint => "riscv-clint-backend".toList
  | .mecall => "riscv-mecall-backend".toList

/-- The features of `rtic-macros`, `rtic-macros/Cargo.toml:33-47`. -/
inductive MFeature where
  | default | sourceMasking | basepri | esp32c3 | esp32c6 | clint | mecall | template
deriving DecidableEq, Repr

/-- Their names, `rtic-macros/Cargo.toml:34-47`. -/
def MFeature.name : MFeature → Str
  | .default => "default".toList
  | .sourceMasking => "cortex-m-source-masking".toList
  | .basepri => "cortex-m-basepri".toList
  | .esp32c3 => "riscv-esp32c3".toList
  | .esp32c6 => "riscv-esp32c6".toList
  | .clint => "riscv-clint".toList
  | .mecall => "riscv-mecall".toList
  | .template => "test-template".toList

/-- The feature of `rtic-macros` that a feature of `rtic` switches on, `rtic/Cargo.toml:56-77`. -/
def Feature.macros : Feature → Option MFeature
  | .default => none
  | .thumbv6 => some .sourceMasking
  | .thumbv7 => some .basepri
  | .thumbv8base => some .sourceMasking
  | .thumbv8main => some .basepri
  | .esp32c3 => some .esp32c3
  | .esp32c6 => some .esp32c6
  | .clint => some .clint
  | .mecall => some .mecall

/-! ## `rtic/build.rs` -/

/-- `backends`, `rtic/build.rs:3-10`. -/
def backends (env : List Str) : List Str :=
  env.filterMap fun k => (stripPrefix "CARGO_FEATURE_".toList k).bind fun f => if endsWith f "BACKEND".toList then some (featureName f) else none

/-- The table, `rtic/build.rs:26-35`. -/
def impls : List (Str × Str) :=
  [("thumbv6-backend".toList, "cortex-m-source-masking".toList),
   ("thumbv8base-backend".toList, "cortex-m-source-masking".toList),
   ("thumbv7-backend".toList, "cortex-m-basepri".toList),
   ("thumbv8main-backend".toList, "cortex-m-basepri".toList),
   ("riscv-esp32c3-backend".toList, "riscv-esp32c3".toList),
   ("riscv-esp32c6-backend".toList, "riscv-esp32c6".toList),
   ("riscv-clint-backend".toList, "riscv-slic".toList),
   ("riscv-mecall-backend".toList, "riscv-slic".toList)]

/-- `main`, `rtic/build.rs:12-59`: the value of `cfg(implementation)`, or `none` if it prints a `cargo::error`. -/
def rticBuild (env : List Str) : Option Str :=
  let bs := backends env
  if bs.length > 1 then none
  else match bs.getLast? with
    | none => none
    | some b => impls.findSome? fun x => if x.1 = b then some x.2 else none

/-! ## `rtic-macros/build.rs` -/

/-- `non_default_features`, `rtic-macros/build.rs:1-7`. -/
def nonDefault (env : List Str) : List Str :=
  env.filterMap fun k => ((stripPrefix "CARGO_FEATURE_".toList k).map featureName).filter fun f => decide (f ≠ "default".toList)

/-- `main`, `rtic-macros/build.rs:9-29`: whether `cfg(riscv_slic)` is set, or `none` if it prints a `cargo::error`. -/
def macrosBuild (env : List Str) : Option Bool :=
  let fs := nonDefault env
  match fs.getLast? with
  | none => none
  | some f =>
    if fs.dropLast ≠ [] then none
    else some (decide (f = "riscv-clint".toList) || decide (f = "riscv-mecall".toList))

/-! ## What is compiled -/

/-- The modules of `rtic/src/export` that are compiled and whose contents are exported, `rtic/src/export.rs:6-45`. -/
inductive RunMod where
  | cortexCommon | cortexBasepri | cortexSourceMask | esp32c3 | esp32c6 | slic
deriving DecidableEq, Repr

/-- `rtic/src/export.rs:6-45` -/
def runModules (impl : Str) : List RunMod :=
  (if impl = "cortex-m-basepri".toList ∨ impl = "cortex-m-source-masking".toList then [.cortexCommon] else []) ++
  (if impl = "cortex-m-basepri".toList then [.cortexBasepri] else []) ++
  (if impl = "cortex-m-source-masking".toList then [.cortexSourceMask] else []) ++
  (if impl = "riscv-esp32c3".toList then [.esp32c3] else []) ++
  (if impl = "riscv-esp32c6".toList then [.esp32c6] else []) ++
  (if impl = "riscv-slic".toList then [.slic] else [])

/-- The modules of `rtic-macros/src/codegen/bindings` (and, by the same conditions, of `rtic-macros/src/syntax/backend`), and the parts of `cortex.rs` that are compiled:
`basepri` is `cortex.rs:134` ff. (`impl_mutex` with priorities, no masks), `sourceMask` is `cortex.rs:44` ff. -/
inductive GenMod where
  | cortex | basepri | sourceMask | template | esp32c3 | esp32c6 | slic | slicClint | slicMecall
deriving DecidableEq, Repr

/-- `rtic-macros/src/codegen/bindings.rs:1-29`, `cortex.rs:11-14, 44, 134`, `riscv_slic.rs:151, 225, 230`; `rtic-macros/src/syntax/backend.rs:1-29`. -/
def genModules (fs : List MFeature) (slic : Bool) : List GenMod :=
  (if MFeature.sourceMasking ∈ fs ∨ MFeature.basepri ∈ fs then [.cortex] else []) ++
  (if MFeature.basepri ∈ fs then [.basepri] else []) ++
  (if MFeature.sourceMasking ∈ fs then [.sourceMask] else []) ++
  (if MFeature.template ∈ fs then [.template] else []) ++
  (if MFeature.esp32c3 ∈ fs then [.esp32c3] else []) ++
  (if MFeature.esp32c6 ∈ fs then [.esp32c6] else []) ++
  (if slic then [.slic] ++ (if MFeature.clint ∈ fs then [.slicClint] else []) ++ (if MFeature.mecall ∈ fs then [.slicMecall] else []) else [])

end Verif.Build
