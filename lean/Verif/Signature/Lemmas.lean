import Verif.Signature.Model
import Verif.Signature.Spec
import Verif.Analysis.AcceptProps

/-! # Lemmas for C97 -/

namespace Verif.Signature
open Verif.Analysis (Ident TaskArg Res Err err Map HwTask SwTask PSt SharedRes Item has initArgs idleArgs taskArgs checkIdent checkBinding insertNew parseDispatchers parseItem bind_ok bind_eq foldlM_ok_append)

theorem attrEq_iff {a : Attr} {n : Ident} : attrEq a n = true ↔ IsAttr n a := by
  obtain ⟨inner, ⟨lc, segs⟩, args⟩ := a
  unfold attrEq IsAttr
  rcases segs with _ | ⟨⟨i, pa⟩, _ | ⟨s2, l⟩⟩ <;> simp [and_comm]

theorem check_iff {f : Fn} {aa : Bool} : checkFnSignature f aa = true ↔ Plain f ∧ (f.isAsync = false ∨ aa = true) := by
  unfold checkFnSignature
  simp only [Bool.and_eq_true, Bool.not_eq_true', Bool.or_eq_true, beq_iff_eq, Option.isNone_iff_eq_none]
  constructor
  · rintro ⟨⟨⟨⟨⟨⟨⟨h1, h2⟩, h3⟩, h4⟩, h5⟩, h6⟩, h7⟩, h8⟩
    exact ⟨⟨h1, h2, h5, h4, h6, h7, h8⟩, h3⟩
  · rintro ⟨⟨h1, h2, h5, h4, h6, h7, h8⟩, h3⟩
    exact ⟨⟨⟨⟨⟨⟨⟨h1, h2⟩, h3⟩, h4⟩, h5⟩, h6⟩, h7⟩, h8⟩

theorem lifetimeOk_iff {i : Ident} {args : PArgs} : lifetimeOk (some { ident := i, args := args }) = true ↔ NotStatic args := by
  unfold NotStatic
  cases args with
  | none => simp [lifetimeOk]
  | paren => simp [lifetimeOk]
  | angle l =>
    rcases l with _ | ⟨g, _ | ⟨g2, l⟩⟩
    · simp [lifetimeOk]
    · cases g <;> simp [lifetimeOk]
    · simp [lifetimeOk]

theorem context_iff {pat : Nat} {ty : Ty} {n : Ident} {tt : TaskType} :
    isValidContext ty [n, Kw.context] tt = true ↔ ∃ args, ContextArg n args (.typed pat ty) ∧ (tt = .softwareExternNotBottom → NotStatic args) := by
  unfold ContextArg
  cases ty with
  | never => simp [isValidContext]
  | tuple l => simp [isValidContext]
  | other n => simp [isValidContext]
  | path q p =>
    obtain ⟨lc, segs⟩ := p
    cases q with
    | true => simp [isValidContext]
    | false =>
      rcases segs with _ | ⟨⟨i, a0⟩, _ | ⟨⟨i2, a1⟩, _ | ⟨s3, l⟩⟩⟩
      · simp [isValidContext]
      · simp [isValidContext]
      · simp only [isValidContext, List.length_cons, List.length_nil, List.zip_cons_cons, List.zip_nil_right, List.all_cons, List.all_nil, List.getLast?_cons_cons, List.getLast?_singleton, Bool.and_true,
          Bool.and_eq_true, beq_iff_eq, Bool.or_eq_true, lifetimeOk_iff, FnArg.typed.injEq, Ty.path.injEq, true_and, Path.mk.injEq, List.cons.injEq, Seg.mk.injEq, and_true]
        constructor
        · rintro ⟨⟨h1, h2⟩, h3⟩
          refine ⟨a1, ⟨pat, lc, a0, rfl, rfl, ⟨h1, rfl⟩, h2, rfl⟩, fun h => ?_⟩
          rcases h3 with h3 | h3
          · rw [h3] at h; cases h
          · exact h3
        · rintro ⟨args, ⟨pat', lc', a0', -, h1, ⟨h2, h3⟩, h4, rfl⟩, h⟩
          refine ⟨⟨h2, h4⟩, ?_⟩
          cases tt with
          | other => exact .inl rfl
          | softwareExternNotBottom => exact .inr (h rfl)
      · simp [isValidContext]

theorem typedAll_iff {l : List FnArg} {ins : List (Nat × Ty)} : typedAll l = some ins ↔ l = ins.map fun i => FnArg.typed i.1 i.2 := by
  induction l generalizing ins with
  | nil => cases ins <;> simp [typedAll]
  | cons a l ih =>
    cases a with
    | receiver => cases ins <;> simp [typedAll]
    | typed p t =>
      simp only [typedAll, Option.map_eq_some_iff]
      constructor
      · rintro ⟨is, h, rfl⟩
        simp [ih.mp h]
      · intro h
        cases ins with
        | nil => cases h
        | cons i is =>
          simp only [List.map_cons, List.cons.injEq, FnArg.typed.injEq] at h
          exact ⟨is, ih.mpr h.2, by rw [h.1.1, h.1.2]⟩

theorem parseInputs_iff {l : List FnArg} {n : Ident} {tt : TaskType} {c : Nat} {ins : List (Nat × Ty)} : parseInputs l n tt = some (c, some ins) ↔
    ∃ ty args, l = .typed c ty :: ins.map (fun i => FnArg.typed i.1 i.2) ∧ ContextArg n args (.typed c ty) ∧ (tt = .softwareExternNotBottom → NotStatic args) := by
  cases l with
  | nil => simp [parseInputs]
  | cons a l =>
    cases a with
    | receiver => simp [parseInputs]
    | typed p t =>
      simp only [parseInputs]
      constructor
      · intro h
        split at h
        · next hv =>
          simp only [Option.some.injEq, Prod.mk.injEq] at h
          obtain ⟨rfl, h2⟩ := h
          obtain ⟨args, h3, h4⟩ := (context_iff (pat := p)).mp hv
          exact ⟨t, args, by rw [typedAll_iff.mp h2], h3, h4⟩
        · cases h
      · rintro ⟨ty, args, h1, h2, h3⟩
        simp only [List.cons.injEq, FnArg.typed.injEq] at h1
        obtain ⟨⟨rfl, rfl⟩, h1⟩ := h1
        rw [if_pos ((context_iff (pat := p)).mpr ⟨args, h2, h3⟩), typedAll_iff.mpr h1]

theorem bottom_iff {r : Ret} : typeIsBottom r = true ↔ Diverges r := by
  unfold Diverges
  cases r with
  | default => simp [typeIsBottom]
  | type t => cases t <;> simp [typeIsBottom]

theorem unit_iff {r : Ret} : typeIsUnit r = true ↔ ReturnsUnit r := by
  unfold ReturnsUnit
  cases r with
  | default => simp [typeIsUnit]
  | type t => cases t <;> simp [typeIsUnit]

theorem initName_iff {t : Ty} {n : Ident} : initResourceName t = some n ↔ NamesType n t := by
  unfold NamesType
  cases t with
  | never => simp [initResourceName]
  | tuple l => simp [initResourceName]
  | other k => simp [initResourceName]
  | path q p =>
    obtain ⟨lc, segs⟩ := p
    rcases segs with _ | ⟨⟨i, a⟩, _ | ⟨s, l⟩⟩
    · simp [initResourceName]
    · cases lc <;> simp [initResourceName, and_comm]
    · simp [initResourceName]

theorem initReturn_iff {r : Ret} {us ul : Ident} : typeIsInitReturn r = some (us, ul) ↔ ∃ a b, r = .type (.tuple [a, b]) ∧ NamesType us a ∧ NamesType ul b := by
  cases r with
  | default => simp [typeIsInitReturn]
  | type t =>
    cases t with
    | never => simp [typeIsInitReturn]
    | path q p => simp [typeIsInitReturn]
    | other k => simp [typeIsInitReturn]
    | tuple l =>
      rcases l with _ | ⟨a, _ | ⟨b, _ | ⟨c, l⟩⟩⟩
      · simp [typeIsInitReturn]
      · simp [typeIsInitReturn]
      · simp only [typeIsInitReturn, Ret.type.injEq, Ty.tuple.injEq, List.cons.injEq, and_true]
        constructor
        · intro h
          cases h1 : initResourceName a with
          | none => rw [h1] at h; cases h
          | some x =>
            cases h2 : initResourceName b with
            | none => rw [h1, h2] at h; cases h
            | some y =>
              rw [h1, h2] at h; cases h
              exact ⟨a, b, ⟨rfl, rfl⟩, initName_iff.mp h1, initName_iff.mp h2⟩
        · rintro ⟨a', b', ⟨rfl, rfl⟩, h1, h2⟩
          rw [initName_iff.mpr h1, initName_iff.mpr h2]; rfl
      · simp [typeIsInitReturn]

/-! ## the functions -/

theorem oneInput_iff {l : List FnArg} {n : Ident} : (l.length = 1 ∧ ∃ c, parseInputs l n .other = some (c, some [])) ↔ ∃ c args, l = [c] ∧ ContextArg n args c := by
  constructor
  · rintro ⟨-, c, h⟩
    obtain ⟨ty, args, h1, h2, -⟩ := parseInputs_iff.mp h
    exact ⟨_, args, h1, h2⟩
  · rintro ⟨c, args, h1, h2⟩
    obtain ⟨pat, lc, a0, h3⟩ := id h2
    subst h3
    exact ⟨by rw [h1]; rfl, pat, parseInputs_iff.mpr ⟨_, args, by rw [h1]; rfl, h2, by intro h; cases h⟩⟩

theorem hardware_iff {ext : Bool} {f : Fn} : (∃ d, parseHardware ext f = some d) ↔ HardwareForm f := by
  unfold parseHardware
  constructor
  · rintro ⟨d, h⟩
    split at h
    · next hc =>
      simp only [Bool.and_eq_true, beq_iff_eq] at hc
      obtain ⟨⟨h1, h2⟩, h3⟩ := hc
      obtain ⟨hp, ha⟩ := check_iff.mp h1
      split at h
      · next c rest hi =>
        split at h
        · next hr =>
          have : rest = [] := by simpa using hr
          subst this
          exact ⟨hp, by simpa using ha, oneInput_iff.mp ⟨h2, c, hi⟩, unit_iff.mp h3⟩
        · cases h
      · cases h
    · cases h
  · rintro ⟨h1, h2, h3, h4⟩
    obtain ⟨h5, c, h6⟩ := oneInput_iff.mpr h3
    rw [if_pos (by simp only [Bool.and_eq_true, beq_iff_eq]; exact ⟨⟨check_iff.mpr ⟨h1, .inl h2⟩, h5⟩, unit_iff.mpr h4⟩), h6]
    exact ⟨_, rfl⟩

theorem idle_iff {ext : Bool} {f : Fn} : (∃ d, parseIdle ext f = some d) ↔ IdleForm f := by
  unfold parseIdle
  constructor
  · rintro ⟨d, h⟩
    split at h
    · next hc =>
      simp only [Bool.and_eq_true, beq_iff_eq] at hc
      obtain ⟨⟨h1, h2⟩, h3⟩ := hc
      obtain ⟨hp, ha⟩ := check_iff.mp h1
      split at h
      · next c rest hi =>
        split at h
        · next hr =>
          have : rest = [] := by simpa using hr
          subst this
          exact ⟨hp, by simpa using ha, oneInput_iff.mp ⟨h2, c, hi⟩, bottom_iff.mp h3⟩
        · cases h
      · cases h
    · cases h
  · rintro ⟨h1, h2, h3, h4⟩
    obtain ⟨h5, c, h6⟩ := oneInput_iff.mpr h3
    rw [if_pos (by simp only [Bool.and_eq_true, beq_iff_eq]; exact ⟨⟨check_iff.mpr ⟨h1, .inl h2⟩, h5⟩, bottom_iff.mpr h4⟩), h6]
    exact ⟨_, rfl⟩

theorem init_iff {ext : Bool} {f : Fn} {us ul : Ident} : (∃ d, parseInit ext f = some (d, us, ul)) ↔ InitForm f us ul := by
  unfold parseInit
  constructor
  · rintro ⟨d, h⟩
    split at h
    · next hc =>
      simp only [Bool.and_eq_true, beq_iff_eq] at hc
      obtain ⟨h1, h2⟩ := hc
      obtain ⟨hp, ha⟩ := check_iff.mp h1
      split at h
      · next us' ul' hr =>
        split at h
        · next c rest hi =>
          split at h
          · next hn =>
            have : rest = [] := by simpa using hn
            subst this
            simp only [Option.some.injEq, Prod.mk.injEq] at h
            obtain ⟨-, rfl, rfl⟩ := h
            exact ⟨hp, by simpa using ha, oneInput_iff.mp ⟨h2, c, hi⟩, initReturn_iff.mp hr⟩
          · cases h
        · cases h
      · cases h
    · cases h
  · rintro ⟨h1, h2, h3, h4⟩
    obtain ⟨h5, c, h6⟩ := oneInput_iff.mpr h3
    rw [if_pos (by simp only [Bool.and_eq_true, beq_iff_eq]; exact ⟨check_iff.mpr ⟨h1, .inl h2⟩, h5⟩), initReturn_iff.mpr h4]
    simp only [h6]
    exact ⟨_, rfl⟩

theorem software_def {ext : Bool} {f : Fn} {d : Def} (h : parseSoftware ext f = some d) : FurtherInputs f d.inputs := by
  unfold parseSoftware at h
  simp only at h
  split at h
  · split at h
    · next c ins hi =>
      obtain ⟨ty, args, h1, -, -⟩ := parseInputs_iff.mp hi
      simp only [Option.some.injEq] at h
      subst h
      unfold FurtherInputs
      rw [h1]; rfl
    · cases h
  · cases h

theorem software_iff {ext : Bool} {f : Fn} : (∃ d, parseSoftware ext f = some d) ↔ SoftwareForm ext f := by
  constructor
  · rintro ⟨d, h⟩
    have hfur := software_def h
    unfold parseSoftware at h
    simp only at h
    split at h
    · next hc =>
      simp only [Bool.and_eq_true, Bool.or_eq_true] at hc
      obtain ⟨⟨h1, h2⟩, h3⟩ := hc
      obtain ⟨hp, -⟩ := check_iff.mp h1
      split at h
      · next c ins hi =>
        obtain ⟨ty, args, h4, h5, h6⟩ := parseInputs_iff.mp hi
        refine ⟨hp, h3, ⟨_, args, _, h4, h5, fun he hd => h6 ?_⟩, ⟨_, hfur⟩, ?_⟩
        · rw [if_pos]
          simp only [Bool.and_eq_true, Bool.not_eq_true']
          exact ⟨he, Bool.eq_false_iff.mpr fun hb => hd (bottom_iff.mp hb)⟩
        · exact h2.imp unit_iff.mp bottom_iff.mp
      · cases h
    · cases h
  · rintro ⟨h1, h2, ⟨c, args, rest, h3, h4, h5⟩, ⟨ins, h6⟩, h7⟩
    obtain ⟨pat, lc, a0, h8⟩ := id h4
    subst h8
    unfold FurtherInputs at h6
    rw [h3] at h6
    simp only [List.tail_cons] at h6
    unfold parseSoftware
    simp only
    rw [if_pos (by
      simp only [Bool.and_eq_true, Bool.or_eq_true]
      exact ⟨⟨check_iff.mpr ⟨h1, .inr rfl⟩, h7.imp unit_iff.mpr bottom_iff.mpr⟩, h2⟩)]
    have : parseInputs f.inputs f.name (if (ext && !typeIsBottom f.output) = true then .softwareExternNotBottom else .other) = some (pat, some ins) := by
      refine parseInputs_iff.mpr ⟨_, args, by rw [h3, h6], h4, fun h => ?_⟩
      split at h
      · next hx =>
        simp only [Bool.and_eq_true, Bool.not_eq_true'] at hx
        refine h5 hx.1 fun hd => ?_
        rw [bottom_iff.mpr hd] at hx; exact absurd hx.2 (by simp)
      · cases h
    rw [this]
    exact ⟨_, rfl⟩

/-! ## attributes do not matter for the form -/

theorem plain_attrs {f : Fn} {as : List Attr} : Plain { f with attrs := as } ↔ Plain f :=
  ⟨fun ⟨a, b, c, d, e, g, h⟩ => ⟨a, b, c, d, e, g, h⟩, fun ⟨a, b, c, d, e, g, h⟩ => ⟨a, b, c, d, e, g, h⟩⟩

theorem hardware_attrs {f : Fn} {as : List Attr} : HardwareForm { f with attrs := as } ↔ HardwareForm f :=
  ⟨fun ⟨a, b, c, d⟩ => ⟨plain_attrs.mp a, b, c, d⟩, fun ⟨a, b, c, d⟩ => ⟨plain_attrs.mpr a, b, c, d⟩⟩

theorem idle_attrs {f : Fn} {as : List Attr} : IdleForm { f with attrs := as } ↔ IdleForm f :=
  ⟨fun ⟨a, b, c, d⟩ => ⟨plain_attrs.mp a, b, c, d⟩, fun ⟨a, b, c, d⟩ => ⟨plain_attrs.mpr a, b, c, d⟩⟩

theorem init_attrs {f : Fn} {as : List Attr} {us ul : Ident} : InitForm { f with attrs := as } us ul ↔ InitForm f us ul :=
  ⟨fun ⟨a, b, c, d⟩ => ⟨plain_attrs.mp a, b, c, d⟩, fun ⟨a, b, c, d⟩ => ⟨plain_attrs.mpr a, b, c, d⟩⟩

theorem software_attrs {ext : Bool} {f : Fn} {as : List Attr} : SoftwareForm ext { f with attrs := as } ↔ SoftwareForm ext f :=
  ⟨fun ⟨a, b, c, d, e⟩ => ⟨plain_attrs.mp a, b, c, d, e⟩, fun ⟨a, b, c, d, e⟩ => ⟨plain_attrs.mpr a, b, c, d, e⟩⟩

/-! ## finding attributes -/

theorem marked_iff {l : List Attr} {n : Ident} {args : List TaskArg} : Marked l n args ↔ ∃ a, l.find? (attrEq · n) = some a ∧ args = argsOf a := by
  constructor
  · rintro ⟨pre, a, post, h1, h2, h3, h4⟩
    refine ⟨a, ?_, h4⟩
    rw [List.find?_eq_some_iff_append]
    refine ⟨attrEq_iff.mpr h2, pre, post, h1, fun b hb => ?_⟩
    simp only [Bool.not_eq_true']
    exact Bool.eq_false_iff.mpr fun h => h3 b hb (attrEq_iff.mp h)
  · rintro ⟨a, h1, h2⟩
    obtain ⟨h3, pre, post, h4, h5⟩ := List.find?_eq_some_iff_append.mp h1
    refine ⟨pre, a, post, h4, attrEq_iff.mp h3, fun b hb h => ?_, h2⟩
    have := h5 b hb
    simp [attrEq_iff.mpr h] at this

theorem unmarked_iff {l : List Attr} {n : Ident} : Unmarked l n ↔ l.find? (attrEq · n) = none := by
  rw [List.find?_eq_none]
  constructor
  · intro h a ha hh
    exact h a ha (attrEq_iff.mp hh)
  · intro h a ha hh
    exact h a ha (attrEq_iff.mpr hh)

/-- the inputs are only carried along -/
theorem taskArgs_ins {args : List TaskArg} {ins : List Analysis.Ty} {r : HwTask ⊕ SwTask} : taskArgs args ins = .ok r ↔
    ∃ r0, taskArgs args [] = .ok r0 ∧ r = (match r0 with | .inl t => .inl t | .inr t => .inr { t with inputs := ins }) := by
  unfold taskArgs
  cases h : args.foldlM Analysis.taskArg {} with
  | error e => simp [bind, Except.bind]
  | ok s =>
    simp only [bind, Except.bind, pure, Except.pure]
    cases s.binds with
    | none =>
      simp only [Except.ok.injEq]
      constructor
      · intro h; exact ⟨_, rfl, h.symm⟩
      · rintro ⟨r0, rfl, h⟩; exact h.symm
    | some b =>
      simp only
      split
      · simp [err]
      · simp only [Except.ok.injEq]
        constructor
        · intro h; exact ⟨_, rfl, h.symm⟩
        · rintro ⟨r0, rfl, h⟩; exact h.symm

end Verif.Signature
