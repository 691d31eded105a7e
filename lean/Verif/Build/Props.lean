import Verif.Build.Model

/-!
# One target, the same for the run-time and the generated code (C90)
-/

namespace Verif.Build

/-! ## Specification -/

/-- What a user selects with a backend feature. -/
inductive Target where
  /-- ARMv6-M, ARMv8-M baseline: locking by masking interrupt sources -/
  | sourceMasking
  /-- ARMv7-M, ARMv8-M mainline: locking by BASEPRI -/
  | basepri
  | esp32c3 | esp32c6
  /-- software interrupt controller, driven by the CLINT or by machine environment calls -/
  | slicClint | slicMecall
deriving DecidableEq, Repr

/-- The target that the documentation of the feature promises (`default` is not a backend). -/
def Feature.target : Feature → Option Target
  | .default => none
  | .thumbv6 => some .sourceMasking
  | .thumbv8base => some .sourceMasking
  | .thumbv7 => some .basepri
  | .thumbv8main => some .basepri
  | .esp32c3 => some .esp32c3
  | .esp32c6 => some .esp32c6
  | .clint => some .slicClint
  | .mecall => some .slicMecall

/-- The run-time modules for a target: exactly one implementation of `lock`, `run`, `pend`. -/
def Target.run : Target → List RunMod
  | .sourceMasking => [.cortexCommon, .cortexSourceMask]
  | .basepri => [.cortexCommon, .cortexBasepri]
  | .esp32c3 => [.esp32c3]
  | .esp32c6 => [.esp32c6]
  | .slicClint | .slicMecall => [.slic]

/-- The code generator modules for a target. -/
def Target.gen : Target → List GenMod
  | .sourceMasking => [.cortex, .sourceMask]
  | .basepri => [.cortex, .basepri]
  | .esp32c3 => [.esp32c3]
  | .esp32c6 => [.esp32c6]
  | .slicClint => [.slic, .slicClint]
  | .slicMecall => [.slic, .slicMecall]

/-- The variables of the enabled features are in the environment, each once, in some order, and no other variable begins with `CARGO_FEATURE_`. -/
def Shows (env : List Str) (names : List Str) : Prop :=
  (env.filter fun k => "CARGO_FEATURE_".toList.isPrefixOf k).Perm (names.map envVar)

/-! ## The build scripts -/

theorem filterMap_filter_isSome {α β : Type} (p : α → Bool) (f : α → Option β) (h : ∀ a, p a = false → f a = none) : ∀ l : List α, (l.filter p).filterMap f = l.filterMap f := by
  intro l
  induction l with
  | nil => rfl
  | cons a l ih =>
    cases hp : p a with
    | true => rw [List.filter_cons_of_pos hp, List.filterMap_cons, List.filterMap_cons, ih]
    | false => rw [List.filter_cons_of_neg (by simp [hp]), List.filterMap_cons, h a hp, ih]

theorem stripPrefix_none : ∀ p k : Str, p.isPrefixOf k = false → stripPrefix p k = none
  | [], k, h => by simp [List.isPrefixOf] at h
  | c :: p, [], h => rfl
  | c :: p, d :: k, h => by
    simp only [stripPrefix]
    split
    · next e => subst e; exact stripPrefix_none p k (by simpa [List.isPrefixOf] using h)
    · rfl

theorem backends_perm {env : List Str} {fs : List Feature} (h : Shows env (fs.map Feature.name)) :
    (backends env).Perm ((fs.filter fun f => f.target.isSome).map Feature.name) := by
  unfold backends
  rw [← filterMap_filter_isSome (fun k => "CARGO_FEATURE_".toList.isPrefixOf k)]
  · refine (List.Perm.filterMap _ h).trans ?_
    rw [List.map_map, List.filterMap_map]
    have key : ∀ fs : List Feature, List.filterMap ((fun k => (stripPrefix "CARGO_FEATURE_".toList k).bind fun f => if endsWith f "BACKEND".toList then some (featureName f) else none) ∘ (envVar ∘ Feature.name)) fs =
        (fs.filter fun f => f.target.isSome).map Feature.name := by
      intro fs
      induction fs with
      | nil => rfl
      | cons f fs ih => rw [List.filterMap_cons, ih]; cases f <;> rfl
    rw [key]
  · intro a ha
    cases hs : stripPrefix "CARGO_FEATURE_".toList a with
    | none => rfl
    | some x => rw [stripPrefix_none _ _ ha] at hs; cases hs

theorem nonDefault_perm {env : List Str} {ms : List MFeature} (h : Shows env (ms.map MFeature.name)) :
    (nonDefault env).Perm ((ms.filter fun m => decide (m ≠ .default)).map MFeature.name) := by
  unfold nonDefault
  rw [← filterMap_filter_isSome (fun k => "CARGO_FEATURE_".toList.isPrefixOf k)]
  · refine (List.Perm.filterMap _ h).trans ?_
    rw [List.map_map, List.filterMap_map]
    have key : ∀ ms : List MFeature, List.filterMap ((fun k => ((stripPrefix "CARGO_FEATURE_".toList k).map featureName).filter fun f => decide (f ≠ "default".toList)) ∘ (envVar ∘ MFeature.name)) ms =
        (ms.filter fun m => decide (m ≠ .default)).map MFeature.name := by
      intro ms
      induction ms with
      | nil => rfl
      | cons f ms ih => rw [List.filterMap_cons, ih]; cases f <;> rfl
    rw [key]
  · intro a ha
    cases hs : stripPrefix "CARGO_FEATURE_".toList a with
    | none => rfl
    | some x => rw [stripPrefix_none _ _ ha] at hs; cases hs

/-- `f` is the only backend among the enabled features. -/
def OnlyBackend (fs : List Feature) (f : Feature) : Prop := f ∈ fs ∧ f.target.isSome = true ∧ ∀ g ∈ fs, g.target.isSome = true → g = f

theorem only_of_length {fs : List Feature} {f : Feature} (h : fs.filter (fun f => f.target.isSome) = [f]) : OnlyBackend fs f := by
  have hm : ∀ g, g ∈ fs ∧ g.target.isSome = true ↔ g = f := by
    intro g; have e := @List.mem_filter _ (fun f : Feature => f.target.isSome) fs g; rw [h, List.mem_singleton] at e; exact e.symm
  refine ⟨((hm f).2 rfl).1, ((hm f).2 rfl).2, fun g hg ht => (hm g).1 ⟨hg, ht⟩⟩

theorem filter_of_only {fs : List Feature} {f : Feature} (hn : fs.Nodup) (h : OnlyBackend fs f) : fs.filter (fun f => f.target.isSome) = [f] := by
  obtain ⟨h1, h2, h3⟩ := h
  have hn' := hn.filter (fun f => f.target.isSome)
  have hall : ∀ g ∈ fs.filter (fun f => f.target.isSome), g = f := fun g hg => h3 g (List.mem_filter.mp hg).1 (List.mem_filter.mp hg).2
  have hmem : f ∈ fs.filter (fun f => f.target.isSome) := List.mem_filter.mpr ⟨h1, h2⟩
  match hl : fs.filter (fun f => f.target.isSome) with
  | [] => rw [hl] at hmem; cases hmem
  | [g] => rw [hl] at hmem; cases List.mem_singleton.mp hmem; exact hl
  | g :: g' :: l =>
    rw [hl] at hall hn'
    have e1 := hall g List.mem_cons_self
    have e2 := hall g' (List.mem_cons_of_mem _ List.mem_cons_self)
    rw [e1, e2] at hn'
    simp at hn'

theorem rticBuild_of {env : List Str} {f : Feature} (h : (backends env).Perm [f.name]) : rticBuild env = impls.findSome? fun x => if x.1 = f.name then some x.2 else none := by
  have := List.perm_singleton.mp h
  unfold rticBuild
  rw [this]
  simp

theorem rticBuild_none {env : List Str} (h : (backends env).length ≠ 1) : rticBuild env = none := by
  unfold rticBuild
  match hb : backends env with
  | [] => rfl
  | [x] => rw [hb] at h; exact absurd rfl h
  | x :: y :: l => simp

/-- **C90** Whatever features are enabled, in whatever order the build script sees them and whatever else is in the environment: the build script of `rtic` lets the build go on if and only if
exactly one backend feature is enabled, and the run-time that is then compiled is the one for the target of that feature. -/
theorem C90_rtic_build {env : List Str} {fs : List Feature} (hn : fs.Nodup) (h : Shows env (fs.map Feature.name)) :
    ((∃ i, rticBuild env = some i) ↔ ∃ f, OnlyBackend fs f) ∧
    (∀ i, rticBuild env = some i → ∃ f t, OnlyBackend fs f ∧ f.target = some t ∧ runModules i = t.run) := by
  have hp := backends_perm h
  have main : ∀ f, OnlyBackend fs f → ∃ i t, rticBuild env = some i ∧ f.target = some t ∧ runModules i = t.run := by
    intro f hf
    rw [filter_of_only hn hf] at hp
    rw [rticBuild_of hp]
    cases f
    case default => cases hf.2.1
    all_goals exact ⟨_, _, rfl, rfl, by decide⟩
  have conv : ∀ i, rticBuild env = some i → ∃ f, OnlyBackend fs f := by
    intro i hi
    have hl : (backends env).length = 1 := by
      apply Classical.byContradiction
      intro hne
      rw [rticBuild_none hne] at hi
      cases hi
    rw [hp.length_eq, List.length_map, List.length_eq_one_iff] at hl
    obtain ⟨f, hf⟩ := hl
    exact ⟨f, only_of_length hf⟩
  refine ⟨⟨fun ⟨i, hi⟩ => conv i hi, fun ⟨f, hf⟩ => ?_⟩, fun i hi => ?_⟩
  · obtain ⟨i, t, h1, -⟩ := main f hf
    exact ⟨i, h1⟩
  · obtain ⟨f, hf⟩ := conv i hi
    obtain ⟨i', t, h1, h2, h3⟩ := main f hf
    rw [hi] at h1
    cases h1
    exact ⟨f, t, hf, h2, h3⟩

/-- The features of `rtic-macros` that are enabled: those that the features of `rtic` switch on (each once, features are a set), and `extra`, switched on by somebody else. -/
def MacrosEnabled (fs : List Feature) (extra : MFeature → Prop) (ms : List MFeature) : Prop :=
  ms.Nodup ∧ ∀ m, m ∈ ms ↔ (∃ f ∈ fs, f.macros = some m) ∨ extra m

theorem macrosBuild_some {env : List Str} {ms : List MFeature} (h : Shows env (ms.map MFeature.name)) {b : Bool} (hb : macrosBuild env = some b) :
    ∃ m, ms.filter (fun m => decide (m ≠ .default)) = [m] ∧ b = (decide (m = .clint) || decide (m = .mecall)) := by
  have hp := nonDefault_perm h
  have hl : (nonDefault env).length = 1 := by
    unfold macrosBuild at hb
    match hq : nonDefault env with
    | [] => rw [hq] at hb; cases hb
    | [x] => rfl
    | x :: y :: l => rw [hq] at hb; simp [List.getLast?_cons_cons, List.getLast?_cons] at hb
  rw [hp.length_eq, List.length_map, List.length_eq_one_iff] at hl
  obtain ⟨m, hm⟩ := hl
  refine ⟨m, hm, ?_⟩
  rw [hm] at hp
  have hq := List.perm_singleton.mp hp
  unfold macrosBuild at hb
  rw [hq] at hb
  simp only [List.getLast?_singleton, List.dropLast_singleton, ne_eq, not_true_eq_false, if_false, Option.some.injEq] at hb
  rw [← hb]
  have : m ≠ .default := by
    have : m ∈ ms.filter fun m => decide (m ≠ .default) := by rw [hm]; exact List.mem_singleton.mpr rfl
    simpa using (List.mem_filter.mp this).2
  cases m <;> first | rfl | exact absurd rfl this

/-- **C90** If both build scripts let the build go on, exactly one backend is enabled, and both the run-time and the code generator are compiled for its target, and for no other:
what the macro generates (masks or priorities, interrupt controller, entry points) is what the run-time expects. `extra` are features of `rtic-macros` switched on by anything else in the dependency tree. -/
theorem C90_same_target {env env' : List Str} {fs : List Feature} {ms : List MFeature} {extra : MFeature → Prop} (hn : fs.Nodup) (h : Shows env (fs.map Feature.name))
    (hm : MacrosEnabled fs extra ms) (h' : Shows env' (ms.map MFeature.name)) {i : Str} {b : Bool} (hi : rticBuild env = some i) (hb : macrosBuild env' = some b) :
    ∃ f t, OnlyBackend fs f ∧ f.target = some t ∧ runModules i = t.run ∧ genModules ms b = t.gen := by
  obtain ⟨f, t, hf, ht, hr⟩ := (C90_rtic_build hn h).2 i hi
  obtain ⟨m, hmm, hbb⟩ := macrosBuild_some h' hb
  refine ⟨f, t, hf, ht, hr, ?_⟩
  have hmem : ∀ x, x ∈ ms → x ≠ .default → x = m := by
    intro x hx hd
    have : x ∈ ms.filter fun m => decide (m ≠ .default) := List.mem_filter.mpr ⟨hx, by simpa using hd⟩
    rw [hmm] at this
    exact List.mem_singleton.mp this
  have hfm : ∀ x, f.macros = some x → m = x ∧ x ∈ ms := by
    intro x hx
    have h1 : x ∈ ms := (hm.2 x).2 (.inl ⟨f, hf.1, hx⟩)
    refine ⟨(hmem x h1 ?_).symm, h1⟩
    rintro rfl
    cases f <;> cases hx
  have hin : ∀ x, x ≠ .default → (x ∈ ms ↔ x = m) := by
    intro x hd
    refine ⟨fun hx => hmem x hx hd, ?_⟩
    rintro rfl
    have : x ∈ ms.filter fun m => decide (m ≠ .default) := by rw [hmm]; exact List.mem_singleton.mpr rfl
    exact (List.mem_filter.mp this).1
  unfold genModules
  simp only [hbb, hin .sourceMasking (by decide), hin .basepri (by decide), hin .template (by decide), hin .esp32c3 (by decide), hin .esp32c6 (by decide), hin .clint (by decide), hin .mecall (by decide)]
  cases f
  case default => cases ht
  all_goals
    cases ht
    obtain ⟨rfl, -⟩ := hfm _ rfl
    decide

/-- **C90** With the features of `rtic-macros` left alone (`default` at most), the build goes on whenever exactly one backend is enabled. -/
theorem C90_macros_build {env' : List Str} {fs : List Feature} {ms : List MFeature} {extra : MFeature → Prop} (he : ∀ m, extra m → m = .default)
    (hm : MacrosEnabled fs extra ms) (h' : Shows env' (ms.map MFeature.name)) {f : Feature} (hf : OnlyBackend fs f) : ∃ b, macrosBuild env' = some b := by
  obtain ⟨m, hmac, hd⟩ : ∃ m, f.macros = some m ∧ m ≠ .default := by
    cases f
    case default => cases hf.2.1
    all_goals exact ⟨_, rfl, by decide⟩
  have hfs : ∀ g ∈ fs, ∀ x, g.macros = some x → x = m := by
    intro g hg x hx
    have : g = f := hf.2.2 g hg (by cases g <;> first | rfl | cases hx)
    subst this
    rw [hmac] at hx
    exact (Option.some.inj hx).symm
  have hfil : ms.filter (fun m => decide (m ≠ .default)) = [m] := by
    have hn' := hm.1.filter (fun m => decide (m ≠ MFeature.default))
    have hall : ∀ x ∈ ms.filter (fun m => decide (m ≠ .default)), x = m := by
      intro x hx
      obtain ⟨hx, hxd⟩ := List.mem_filter.mp hx
      rcases (hm.2 x).1 hx with ⟨g, hg, hgx⟩ | hex
      · exact hfs g hg x hgx
      · exact absurd (he x hex) (by simpa using hxd)
    have hmem : m ∈ ms.filter (fun m => decide (m ≠ .default)) := List.mem_filter.mpr ⟨(hm.2 m).2 (.inl ⟨f, hf.1, hmac⟩), by simpa using hd⟩
    match hl : ms.filter (fun m => decide (m ≠ .default)) with
    | [] => rw [hl] at hmem; cases hmem
    | [g] => rw [hl] at hmem; cases List.mem_singleton.mp hmem; exact hl
    | g :: g' :: l =>
      rw [hl] at hall hn'
      have e1 := hall g List.mem_cons_self
      have e2 := hall g' (List.mem_cons_of_mem _ List.mem_cons_self)
      rw [e1, e2] at hn'
      simp at hn'
  have hp := nonDefault_perm h'
  rw [hfil] at hp
  have hq := List.perm_singleton.mp hp
  unfold macrosBuild
  rw [hq]
  exact ⟨_, rfl⟩

/-- Not vacuous: `thumbv7-backend` and `default` selected, among other variables. -/
example : Shows ["PATH".toList, "CARGO_FEATURE_THUMBV7_BACKEND".toList, "CARGO_CFG_TARGET_ARCH".toList, "CARGO_FEATURE_DEFAULT".toList] ([Feature.default, Feature.thumbv7].map Feature.name) ∧
    OnlyBackend [Feature.default, Feature.thumbv7] .thumbv7 ∧
    rticBuild ["PATH".toList, "CARGO_FEATURE_THUMBV7_BACKEND".toList, "CARGO_CFG_TARGET_ARCH".toList, "CARGO_FEATURE_DEFAULT".toList] = some "cortex-m-basepri".toList := by
  refine ⟨?_, ?_, by decide +kernel⟩
  · have e : (["PATH".toList, "CARGO_FEATURE_THUMBV7_BACKEND".toList, "CARGO_CFG_TARGET_ARCH".toList, "CARGO_FEATURE_DEFAULT".toList].filter fun k => "CARGO_FEATURE_".toList.isPrefixOf k) =
        [envVar Feature.thumbv7.name, envVar Feature.default.name] := by decide +kernel
    unfold Shows
    rw [e]
    exact List.Perm.swap _ _ _
  · refine ⟨by decide, rfl, fun g hg ht => ?_⟩
    cases g <;> first | rfl | (cases ht; done) | (simp at hg)

/-- Two backends are refused. -/
example : rticBuild ["CARGO_FEATURE_THUMBV6_BACKEND".toList, "CARGO_FEATURE_THUMBV8BASE_BACKEND".toList] = none := by decide +kernel

/-- The template of `rtic-macros` together with a backend is refused. -/
example : macrosBuild ["CARGO_FEATURE_CORTEX_M_BASEPRI".toList, "CARGO_FEATURE_TEST_TEMPLATE".toList] = none := by decide +kernel

/-- `ends_with` is what its name says. -/
theorem endsWith_iff (s suffix : Str) : endsWith s suffix = true ↔ ∃ pre, s = pre ++ suffix := by
  unfold endsWith
  simp only [Bool.and_eq_true, decide_eq_true_eq]
  constructor
  · rintro ⟨h1, -⟩
    exact ⟨s.take (s.length - suffix.length), by conv => { rhs; rhs; rw [h1] }; rw [List.take_append_drop]⟩
  · rintro ⟨pre, rfl⟩
    simp

theorem stripPrefix_iff : ∀ p s r : Str, stripPrefix p s = some r ↔ s = p ++ r
  | [], s, r => by simp [stripPrefix]
  | c :: p, [], r => by simp [stripPrefix]
  | c :: p, d :: s, r => by
    simp only [stripPrefix]
    split
    · next e => subst e; rw [stripPrefix_iff p s r]; simp
    · next e => simp [Ne.symm e]

/-- **C90** (names) What the scripts make of each feature, by the names in `Cargo.toml`: the variable that cargo sets for the feature of `rtic`, the implementation chosen; the variable for the feature of `rtic-macros` that it enables and whether the
code for SLIC is compiled. -/
theorem C90_by_name : ∀ x ∈ [
    (Feature.thumbv6, "CARGO_FEATURE_THUMBV6_BACKEND", "cortex-m-source-masking", "CARGO_FEATURE_CORTEX_M_SOURCE_MASKING", false),
    (.thumbv7, "CARGO_FEATURE_THUMBV7_BACKEND", "cortex-m-basepri", "CARGO_FEATURE_CORTEX_M_BASEPRI", false),
    (.thumbv8base, "CARGO_FEATURE_THUMBV8BASE_BACKEND", "cortex-m-source-masking", "CARGO_FEATURE_CORTEX_M_SOURCE_MASKING", false),
    (.thumbv8main, "CARGO_FEATURE_THUMBV8MAIN_BACKEND", "cortex-m-basepri", "CARGO_FEATURE_CORTEX_M_BASEPRI", false),
    (.esp32c3, "CARGO_FEATURE_RISCV_ESP32C3_BACKEND", "riscv-esp32c3", "CARGO_FEATURE_RISCV_ESP32C3", false),
    (.esp32c6, "CARGO_FEATURE_RISCV_ESP32C6_BACKEND", "riscv-esp32c6", "CARGO_FEATURE_RISCV_ESP32C6", false),
    (.clint, "CARGO_FEATURE_RISCV_CLINT_BACKEND", "riscv-slic", "CARGO_FEATURE_RISCV_CLINT", true),
    (.mecall, "CARGO_FEATURE_RISCV_MECALL_BACKEND", "riscv-slic", "CARGO_FEATURE_RISCV_MECALL", true)],
    envVar x.1.name = x.2.1.toList ∧ rticBuild [x.2.1.toList] = some x.2.2.1.toList ∧ x.1.macros.map (fun m => envVar m.name) = some x.2.2.2.1.toList ∧ macrosBuild [x.2.2.2.1.toList] = some x.2.2.2.2 := by
  decide +kernel

/-- the conversion of names between cargo and the scripts, for every letter -/
example : featureName "ABCDEFGHIJKLMNOPQRSTUVWXYZ_0189".toList = "abcdefghijklmnopqrstuvwxyz-0189".toList ∧ envVar "abcdefghijklmnopqrstuvwxyz-0189".toList = "CARGO_FEATURE_ABCDEFGHIJKLMNOPQRSTUVWXYZ_0189".toList ∧
    featureName "@[`{".toList = "@[`{".toList ∧ envVar "@[`{".toList = "CARGO_FEATURE_@[`{".toList := by decide +kernel

end Verif.Build
