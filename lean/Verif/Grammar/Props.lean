import Verif.Grammar.Bridge
import Verif.Grammar.Written

/-!
# C100 and C101: the arguments of the attributes
-/

namespace Verif.Grammar
open Verif.Analysis (Ident Access Map has)
open Verif.Signature (Attr Path IsAttr)

/-! ## A parser for examples -/

/-- attributes at the beginning -/
def exAttrs : List Tok → List Attr × List Tok
  | .attr a :: ts => (a :: (exAttrs ts).1, (exAttrs ts).2)
  | ts => ([], ts)

theorem exAttrs_le (ts : List Tok) : (exAttrs ts).2.length ≤ ts.length := by
  induction ts with
  | nil => exact Nat.le_refl _
  | cons t ts ih =>
    cases t with
    | attr a => simp only [exAttrs, List.length_cons]; omega
    | _ => exact Nat.le_refl _

/-- paths are identifiers, types are identifiers (or other tokens: unsupported types), expressions are identifiers, references to identifiers, and literals -/
def exSyn : Syn where
  path ts := match ts with
    | .ident i :: r => some (Path.just i, r)
    | _ => none
  exprPath ts := match (exAttrs ts).2 with
    | .ident i :: r => some (((exAttrs ts).1, Path.just i), r)
    | _ => none
  expr ts := match (exAttrs ts).2 with
    | .ident i :: r => some (.path (exAttrs ts).1 (Path.just i), r)
    | .amp :: .ident i :: r => some (.reference false (.path [] (Path.just i)), r)
    | .int n _ :: r => some (.other n, r)
    | _ => none
  ty ts := match ts with
    | .ident i :: r => some ({ form := .path, id := i }, r)
    | .other n :: r => some ({ form := .other, id := n }, r)
    | _ => none
  path_lt {ts p r} h := by split at h <;> cases h; simp
  exprPath_lt {ts p r} h := by
    have hl := exAttrs_le ts
    split at h
    next e => cases h; rw [e] at hl; simp only [List.length_cons] at hl; omega
    next => cases h
  expr_lt {ts p r} h := by
    have hl := exAttrs_le ts
    split at h
    next e => cases h; rw [e] at hl; simp only [List.length_cons] at hl; omega
    next e => cases h; rw [e] at hl; simp only [List.length_cons] at hl; omega
    next e => cases h; rw [e] at hl; simp only [List.length_cons] at hl; omega
    next => cases h
  ty_lt {ts p r} h := by
    split at h
    next => cases h; simp
    next => cases h; simp
    next => cases h

theorem exSyn_plain : Plain exSyn where
  expr _ _ _ := rfl
  reference _ _ _ := rfl
  exprPath _ _ _ := rfl
  path _ _ _ := rfl

/-! ## C100 -/

/-- C100 (tasks): `#[task(..)]` is accepted exactly if the tokens are a list of arguments as in the grammar whose meaning is defined, and the result is this meaning. -/
theorem C100_task_arguments (syn : Syn) (ts : List Tok) (r : Sum HwArgs SwArgs) : taskArgs syn ts = some r ↔ ∃ as, CommaList (Arg syn) ts as ∧ TaskMeans as r := by
  have key := commaLoop_iff (taskArg_iff syn) (fun _ _ _ h => arg_lt h) ts.length {} ts
  simp only [taskArgs]
  constructor
  · intro h
    cases hc : commaLoop (taskArg syn) ts.length {} ts with
    | none => rw [hc] at h; cases h
    | some s =>
      rw [hc] at h
      obtain ⟨as, hl, hf⟩ := (key s (Nat.le_refl _)).1 hc
      obtain ⟨hfine, rfl⟩ := (fold_fine _ _).1 hf
      exact ⟨as, hl, (taskFinish_iff as hfine r).1 h⟩
  · rintro ⟨as, hl, hm⟩
    have hfine : Fine as := by cases hm <;> assumption
    rw [(key _ (Nat.le_refl _)).2 ⟨as, hl, (fold_fine _ _).2 ⟨hfine, rfl⟩⟩]
    exact (taskFinish_iff as hfine r).2 hm

/-- C100 (`idle`): nothing, or a list of arguments without a comma at the end. -/
theorem C100_idle_arguments (syn : Syn) (ts : List Tok) (m : Map Access × Map GLocal) :
    idleArgs syn ts = some m ↔ ∃ as, (ts = [] ∧ as = [] ∨ StrictList (Arg syn) ts as) ∧ IdleMeans as m := by
  have none_lt : ∀ {as}, ¬ StrictList (Arg syn) [] as := by
    intro as h
    cases h with
    | last h => exact absurd (arg_lt h) (by simp)
    | cons h => exact absurd (arg_lt h) (by simp)
  cases ts with
  | nil =>
    simp only [idleArgs]
    constructor
    · intro h
      cases h
      exact ⟨[], .inl ⟨by trivial, rfl⟩, ⟨by simp, by simp, by simp, by simp⟩, by simp, .inr ⟨by simp, rfl⟩, .inr ⟨by simp, rfl⟩⟩
    · rintro ⟨as, ⟨-, rfl⟩ | h, hm⟩
      · obtain ⟨-, -, h1, h2⟩ := hm
        simp only [ValueOr, List.not_mem_nil, false_or, not_false_eq_true, implies_true, true_and] at h1 h2
        obtain ⟨m1, m2⟩ := m
        simp only at h1 h2
        rw [h1, h2]
      · exact absurd h none_lt
  | cons t ts =>
    have key := strictLoop_iff (idleArg_iff syn) (fun _ _ _ h => arg_lt h.1) (ts.length + 1) {} (t :: ts)
    have split : ∀ {ts as}, StrictList (fun ts a r => Arg syn ts a r ∧ (a.kind = .shared ∨ a.kind = .locals)) ts as ↔
        StrictList (Arg syn) ts as ∧ ∀ a ∈ as, a.kind = .shared ∨ a.kind = .locals := by
      intro ts as
      constructor
      · intro h
        induction h with
        | last h => exact ⟨.last h.1, by simpa using h.2⟩
        | cons h _ ih => exact ⟨.cons h.1 ih.1, by simpa using ⟨h.2, ih.2⟩⟩
      · rintro ⟨h, hk⟩
        induction h with
        | last h => exact .last ⟨h, by simpa using hk⟩
        | cons h _ ih => exact .cons ⟨h, hk _ (by simp)⟩ (ih fun a ha => hk a (by simp [ha]))
    simp only [idleArgs]
    constructor
    · intro h
      cases hc : strictLoop (idleArg syn) (ts.length + 1) {} (t :: ts) with
      | none => rw [hc] at h; cases h
      | some s =>
        rw [hc] at h
        cases h
        obtain ⟨as, hl, hf⟩ := (key s (Nat.le_refl _)).1 hc
        obtain ⟨hfine, rfl⟩ := (fold_fine _ _).1 hf
        exact ⟨as, .inr (split.1 hl).1, hfine, (split.1 hl).2, (valueOr_iff _ _ _ _ (slot_shared as hfine.once) _).2 rfl, (valueOr_iff _ _ _ _ (slot_locals as hfine.once) _).2 rfl⟩
    · rintro ⟨as, ⟨h, -⟩ | h, hfine, hk, h1, h2⟩
      · cases h
      · rw [(key _ (Nat.le_refl _)).2 ⟨as, split.2 ⟨h, hk⟩, (fold_fine _ _).2 ⟨hfine, rfl⟩⟩]
        have e1 := (valueOr_iff _ _ _ _ (slot_shared as hfine.once) _).1 h1
        have e2 := (valueOr_iff _ _ _ _ (slot_locals as hfine.once) _).1 h2
        simp only [Option.bind_eq_bind, Option.bind_some, e1, e2]
        rfl

/-- C100 (`init`): nothing, or a list of arguments without a comma at the end. -/
theorem C100_init_arguments (syn : Syn) (ts : List Tok) (m : Map GLocal) :
    initArgs syn ts = some m ↔ ∃ as, (ts = [] ∧ as = [] ∨ StrictList (Arg syn) ts as) ∧ InitMeans as m := by
  have none_lt : ∀ {as}, ¬ StrictList (Arg syn) [] as := by
    intro as h
    cases h with
    | last h => exact absurd (arg_lt h) (by simp)
    | cons h => exact absurd (arg_lt h) (by simp)
  have ext : ∀ l : Map GLocal, (l.any (fun kv => isExternal kv.2) = false) ↔ ∀ i, (i, GLocal.external) ∉ l := by
    intro l
    rw [List.any_eq_false]
    constructor
    · intro h i hi; exact h _ hi rfl
    · rintro h ⟨i, v⟩ hv
      cases v with
      | external => exact absurd hv (h i)
      | declared => simp [isExternal]
  cases ts with
  | nil =>
    simp only [initArgs]
    constructor
    · intro h
      cases h
      exact ⟨[], .inl ⟨by trivial, rfl⟩, ⟨by simp, by simp, by simp, by simp⟩, by simp, .inr ⟨by simp, rfl⟩, by simp⟩
    · rintro ⟨as, ⟨-, rfl⟩ | h, hm⟩
      · obtain ⟨-, -, h1, -⟩ := hm
        simp only [ValueOr, List.not_mem_nil, false_or, not_false_eq_true, implies_true, true_and] at h1
        rw [h1]
      · exact absurd h none_lt
  | cons t ts =>
    have key := strictLoop_iff (initArg_iff syn) (fun _ _ _ h => arg_lt h.1) (ts.length + 1) {} (t :: ts)
    have split : ∀ {ts as}, StrictList (fun ts a r => Arg syn ts a r ∧ a.kind = .locals) ts as ↔ StrictList (Arg syn) ts as ∧ ∀ a ∈ as, a.kind = .locals := by
      intro ts as
      constructor
      · intro h
        induction h with
        | last h => exact ⟨.last h.1, by simpa using h.2⟩
        | cons h _ ih => exact ⟨.cons h.1 ih.1, by simpa using ⟨h.2, ih.2⟩⟩
      · rintro ⟨h, hk⟩
        induction h with
        | last h => exact .last ⟨h, by simpa using hk⟩
        | cons h _ ih => exact .cons ⟨h, hk _ (by simp)⟩ (ih fun a ha => hk a (by simp [ha]))
    simp only [initArgs]
    constructor
    · intro h
      cases hc : strictLoop (initArg syn) (ts.length + 1) {} (t :: ts) with
      | none => rw [hc] at h; cases h
      | some s =>
        rw [hc] at h
        simp only [Option.bind_eq_bind, Option.bind_some] at h
        split at h
        next => cases h
        next he =>
          cases h
          obtain ⟨as, hl, hf⟩ := (key s (Nat.le_refl _)).1 hc
          obtain ⟨hfine, rfl⟩ := (fold_fine _ _).1 hf
          exact ⟨as, .inr (split.1 hl).1, hfine, (split.1 hl).2, (valueOr_iff _ _ _ _ (slot_locals as hfine.once) _).2 rfl, (ext _).1 (Bool.eq_false_iff.2 he)⟩
    · rintro ⟨as, ⟨h, -⟩ | h, hfine, hk, h2, h3⟩
      · cases h
      · rw [(key _ (Nat.le_refl _)).2 ⟨as, split.2 ⟨h, hk⟩, (fold_fine _ _).2 ⟨hfine, rfl⟩⟩]
        have e2 := (valueOr_iff _ _ _ _ (slot_locals as hfine.once) _).1 h2
        simp only [Option.bind_eq_bind, Option.bind_some, e2, (ext _).2 h3]
        rfl

/-- C100 (`#[app]`): accepted exactly if the tokens are a list of arguments as in the grammar with `device`, none twice and no dispatcher twice; the result is what is given, otherwise the
default. -/
theorem C100_app_arguments (syn : Syn) (clint : Bool) (ts : List Tok) (a : AppArgs) :
    appArgs syn clint ts = some a ↔ ∃ as, CommaList (AppItem syn clint) ts as ∧ AppMeans as a := by
  have key := commaLoop_iff (appArg_iff syn clint) (fun _ _ _ h => appItem_lt h) ts.length {} ts
  rw [appArgs_eq]
  constructor
  · intro h
    cases hc : commaLoop (appArg syn clint) ts.length {} ts with
    | none => rw [hc] at h; cases h
    | some s =>
      rw [hc] at h
      obtain ⟨as, hl, hf⟩ := (key s (Nat.le_refl _)).1 hc
      obtain ⟨hn, hd, rfl⟩ := (appFold_iff _ _).1 hf
      exact ⟨as, hl, (finishA_iff as hn hd a).1 h⟩
  · rintro ⟨as, hl, hm⟩
    have hd : ∀ l, .dispatchers l ∈ as → (l.map Prod.fst).Nodup := by
      intro l hla
      have hsame : l = a.dispatchers := by
        rcases hm.dispatchers with h | ⟨h, -⟩
        · have := pair_of_nodup hm.once hla h rfl
          cases this; rfl
        · exact absurd hla (h l)
      rw [hsame]; exact hm.distinct
    rw [(key _ (Nat.le_refl _)).2 ⟨as, hl, (appFold_iff _ _).2 ⟨hm.once, hd, rfl⟩⟩]
    exact (finishA_iff as hm.once hd a).2 hm
where
  pair_of_nodup {as : List AArg} (hn : (as.map AArg.kind).Nodup) {x y : AArg} (hx : x ∈ as) (hy : y ∈ as) (hk : x.kind = y.kind) : x = y := by
    induction as with
    | nil => cases hx
    | cons b as ih =>
      simp only [List.map_cons, List.nodup_cons] at hn
      rcases List.mem_cons.1 hx with ex | hx' <;> rcases List.mem_cons.1 hy with ey | hy'
      · rw [ex, ey]
      · subst ex; exact absurd (List.mem_map.2 ⟨y, hy', hk.symm⟩) hn.1
      · subst ey; exact absurd (List.mem_map.2 ⟨x, hx', hk⟩) hn.1
      · exact ih hn.2 hx' hy'

/-- The meaning does not depend on the order of the arguments. -/
theorem taskMeans_perm {as bs : List GArg} (h : as.Perm bs) {r} : TaskMeans as r → TaskMeans bs r := by
  have hm : ∀ a, a ∈ as ↔ a ∈ bs := fun a => h.mem_iff
  have hfine : Fine as → Fine bs := fun hf => ⟨(h.map _).nodup_iff.1 hf.once, fun n hn => hf.priority n ((hm _).2 hn), fun l hl => hf.shared l ((hm _).2 hl), fun l hl => hf.locals l ((hm _).2 hl)⟩
  have hv : ∀ {α : Type} {c : α → GArg} {d v : α}, ValueOr c d as v → ValueOr c d bs v := by
    intro α c d v hv
    rcases hv with h | ⟨h, e⟩
    · exact .inl ((hm _).1 h)
    · exact .inr ⟨fun v hv => h v ((hm _).2 hv), e⟩
  intro ht
  cases ht with
  | hardware h1 h2 h3 h4 h5 h6 => exact .hardware (hfine h1) ((hm _).1 h2) (hv h3) h4 (hv h5) (hv h6)
  | software h1 h2 h3 h4 h5 h6 => exact .software (hfine h1) (fun i hi => h2 i ((hm _).2 hi)) (hv h3) (hv h4) (hv h5) (hv h6)

/-- C100 (order, tasks): writing the same arguments in another order, or with another comma at the end, gives the same result. -/
theorem C100_order_irrelevant (syn : Syn) {ts us : List Tok} {as bs : List GArg} (h1 : CommaList (Arg syn) ts as) (h2 : CommaList (Arg syn) us bs) (hp : as.Perm bs) :
    taskArgs syn ts = taskArgs syn us := by
  have key : ∀ {ts us : List Tok} {as bs : List GArg}, CommaList (Arg syn) ts as → CommaList (Arg syn) us bs → as.Perm bs → ∀ r, taskArgs syn ts = some r → taskArgs syn us = some r := by
    intro ts us as bs h1 h2 hp r hr
    obtain ⟨as', h1', hm⟩ := (C100_task_arguments _ _ _).1 hr
    rw [CommaList.unique (item := Arg syn) arg_unique arg_lt h1' h1] at hm
    exact (C100_task_arguments _ _ _).2 ⟨bs, h2, taskMeans_perm hp hm⟩
  cases hr : taskArgs syn ts with
  | some r => exact (key h1 h2 hp r hr).symm
  | none =>
    cases hu : taskArgs syn us with
    | none => rfl
    | some r => rw [key h2 h1 hp.symm r hu] at hr; cases hr

theorem appMeans_perm {as bs : List AArg} (h : as.Perm bs) {a} (hm : AppMeans as a) : AppMeans bs a := by
  have m : ∀ x, x ∈ as ↔ x ∈ bs := fun x => h.mem_iff
  obtain ⟨h1, h2, h3, h4, h5, h6, h7⟩ := hm
  simp only [m] at h2 h3 h4 h5 h7
  exact ⟨(h.map _).nodup_iff.1 h1, h2, h3, h4, h5, h6, h7⟩

/-- C100 (order, `#[app]`). -/
theorem C100_app_order_irrelevant (syn : Syn) (clint : Bool) {ts us : List Tok} {as bs : List AArg} (h1 : CommaList (AppItem syn clint) ts as) (h2 : CommaList (AppItem syn clint) us bs)
    (hp : as.Perm bs) : appArgs syn clint ts = appArgs syn clint us := by
  have key : ∀ {ts us : List Tok} {as bs : List AArg}, CommaList (AppItem syn clint) ts as → CommaList (AppItem syn clint) us bs → as.Perm bs → ∀ r, appArgs syn clint ts = some r → appArgs syn clint us = some r := by
    intro ts us as bs h1 h2 hp r hr
    obtain ⟨as', h1', hm⟩ := (C100_app_arguments _ _ _ _).1 hr
    rw [CommaList.unique (item := AppItem syn clint) appItem_unique appItem_lt h1' h1] at hm
    exact (C100_app_arguments _ _ _ _).2 ⟨bs, h2, appMeans_perm hp hm⟩
  cases hr : appArgs syn clint ts with
  | some r => exact (key h1 h2 hp r hr).symm
  | none =>
    cases hu : appArgs syn clint us with
    | none => rfl
    | some r => rw [key h2 h1 hp.symm r hu] at hr; cases hr

/-- C100 (documented forms): whatever is written as documented, separated by commas, with or without a comma at the end, is accepted with its meaning. -/
theorem C100_documented_task (syn : Syn) (hs : Plain syn) {ts as r} (hj : Joined (WritesArg syn) ts as) (hm : TaskMeans as r) : taskArgs syn ts = some r :=
  (C100_task_arguments _ _ _).2 ⟨as, hj.commaList (writesArg_arg hs), hm⟩

/-- C100 (documented forms): `idle`, `init` (no comma at the end) and the application. -/
theorem C100_documented_idle_init_app (syn : Syn) (hs : Plain syn) (clint : Bool) :
    (∀ ts as m, JoinedStrict (WritesArg syn) ts as → IdleMeans as m → idleArgs syn ts = some m) ∧
    (∀ ts as m, JoinedStrict (WritesArg syn) ts as → InitMeans as m → initArgs syn ts = some m) ∧
    ∀ ts as a, Joined (WritesApp syn clint) ts as → AppMeans as a → appArgs syn clint ts = some a :=
  ⟨fun _ as _ hj hm => (C100_idle_arguments _ _ _).2 ⟨as, .inr (hj.strictList (writesArg_arg hs)), hm⟩,
   fun _ as _ hj hm => (C100_init_arguments _ _ _).2 ⟨as, .inr (hj.strictList (writesArg_arg hs)), hm⟩,
   fun _ as _ hj hm => (C100_app_arguments _ _ _ _).2 ⟨as, hj.commaList (writesApp_item hs), hm⟩⟩

/-- C100 (connection): what the parser returns is what the analysis (C40-C45, C84) works with, up to the initial values and attributes of local resources. -/
theorem C100_agrees_with_analysis (syn : Syn) (ts : List Tok) (inputs : List Verif.Analysis.Ty) :
    (∀ r, taskArgs syn ts = some r → ∃ as, CommaList (Arg syn) ts as ∧ Verif.Analysis.taskArgs (as.map GArg.erase) inputs = .ok (eraseTask inputs r)) ∧
    (∀ m, idleArgs syn ts = some m → ∃ as, CommaList (Arg syn) ts as ∧ Verif.Analysis.idleArgs (as.map GArg.erase) = .ok (m.1, eraseLocals m.2)) ∧
    ∀ m, initArgs syn ts = some m → ∃ as, CommaList (Arg syn) ts as ∧ Verif.Analysis.initArgs (as.map GArg.erase) = .ok (eraseLocals m) := by
  refine ⟨?_, ?_, ?_⟩
  · intro r h
    obtain ⟨as, hl, hm⟩ := (C100_task_arguments _ _ _).1 h
    exact ⟨as, hl, (task_agrees _ _ _).2 ⟨r, hm, rfl⟩⟩
  · intro m h
    obtain ⟨as, hl, hm⟩ := (C100_idle_arguments _ _ _).1 h
    refine ⟨as, ?_, (idle_agrees _ _).2 ⟨m, hm, rfl⟩⟩
    rcases hl with ⟨rfl, rfl⟩ | hl
    · exact .nil
    · exact hl.comma
  · intro m h
    obtain ⟨as, hl, hm⟩ := (C100_init_arguments _ _ _).1 h
    refine ⟨as, ?_, (init_agrees _ _).2 ⟨m, hm, rfl⟩⟩
    rcases hl with ⟨rfl, rfl⟩ | hl
    · exact .nil
    · exact hl.comma

/-- `binds = UART0, priority = 3, shared = [a, &b], local = [c, d: u8 = 0],` -/
def exTask : List Tok := [.ident Kw.binds, .eq, .ident 100, .comma, .ident Kw.priority, .eq, .int 3 false, .comma,
  .ident Kw.shared, .eq, .bracket [.ident 101, .comma, .amp, .ident 102], .comma, .ident Kw.locals, .eq, .bracket [.ident 103, .comma, .ident 104, .colon, .ident 105, .eq, .int 0 false], .comma]

example : taskArgs exSyn exTask = some (.inl { binds := 100, priority := 3, shared := [(101, .exclusive), (102, .shared)], locals := [(103, .external), (104, .declared [] [] 105 (.other 0))] }) := rfl

example : ∃ as, CommaList (Arg exSyn) exTask as ∧ as.length = 4 := by
  obtain ⟨as, h, hm⟩ := (C100_task_arguments exSyn exTask (.inl { binds := 100, priority := 3, shared := [(101, .exclusive), (102, .shared)], locals := [(103, .external), (104, .declared [] [] 105 (.other 0))] })).1 rfl
  have hj : Joined (WritesArg exSyn) exTask [.binds 100, .priority 3, .shared [(101, .exclusive), (102, .shared)], .locals [(103, .external), (104, .declared [] [] 105 (.other 0))]] :=
    .cons (t := [.ident Kw.binds, .eq, .ident 100]) .binds (.cons (t := [.ident Kw.priority, .eq, .int 3 false]) .priority
      (.cons (t := [.ident Kw.shared, .eq, .bracket [.ident 101, .comma, .amp, .ident 102]]) (.shared (.cons (t := [.ident 101]) .exclusive (.last .shared)))
        (.cons (t := [.ident Kw.locals, .eq, .bracket [.ident 103, .comma, .ident 104, .colon, .ident 105, .eq, .int 0 false]])
          (.locals (.cons (t := [.ident 103]) .external (.last (.declared (t := [.ident 105]) (ty := { form := .path, id := 105 }) (e := [.int 0 false]) (fun _ => rfl) (by simp) (fun _ _ => rfl))))) .nil)))
  exact ⟨_, hj.commaList (writesArg_arg exSyn_plain), rfl⟩

/-- `device = lm3s6965, dispatchers = [SSI0, QEI0]` -/
def exApp : List Tok := [.ident Kw.device, .eq, .ident 200, .comma, .ident Kw.dispatchers, .eq, .bracket [.ident 201, .comma, .ident 202]]

example : appArgs exSyn false exApp = some { device := Path.just 200, core := true, peripherals := true, dispatchers := [(201, []), (202, [])], backend := none } := rfl
example : appArgs exSyn false (exApp ++ [.comma, .ident Kw.device, .eq, .ident 200]) = none := rfl
example : appArgs exSyn false [.ident Kw.peripherals, .eq, .bool false] = none := rfl
example : idleArgs exSyn [.ident Kw.shared, .eq, .bracket [.ident 1]] = some ([(1, .exclusive)], []) := rfl
example : initArgs exSyn [.ident Kw.locals, .eq, .bracket [.ident 1]] = none := rfl

/-! ## C101 -/

/-- C101, negative: the same arguments, with a comma at the end, are accepted for a task and refused for `idle`. -/
theorem C101_trailing_comma_violated (syn : Syn) (hs : Plain syn) : ∃ ts, (∃ r, taskArgs syn (ts ++ [.comma]) = some r) ∧ (∃ m, idleArgs syn ts = some m) ∧ idleArgs syn (ts ++ [.comma]) = none := by
  refine ⟨[.ident Kw.shared, .eq, .bracket [.ident 1]], ⟨_, C100_documented_task syn hs (as := [.shared [(1, .exclusive)]])
    (r := .inr { priority := 0, shared := [(1, .exclusive)], locals := [], localTask := false }) (.cons (t := [.ident Kw.shared, .eq, .bracket [.ident 1]]) (.shared (.last .exclusive)) .nil) ?_⟩, ⟨([(1, .exclusive)], []), ?_⟩, ?_⟩
  · exact .software ⟨by simp, by simp, by simp, by simp⟩ (by simp) (.inr ⟨by simp, rfl⟩) (.inl (by simp)) (.inr ⟨by simp, rfl⟩) (.inr ⟨by simp, rfl⟩)
  · exact (C100_documented_idle_init_app syn hs false).1 _ [.shared [(1, .exclusive)]] _ (.last (.shared (.last .exclusive)))
      ⟨⟨by simp, by simp, by simp, by simp⟩, by simp [GArg.kind], .inl (by simp), .inr ⟨by simp, rfl⟩⟩
  · cases h : idleArgs syn ([.ident Kw.shared, .eq, .bracket [.ident 1]] ++ [.comma]) with
    | none => rfl
    | some m =>
      obtain ⟨as, ⟨h, -⟩ | h, -⟩ := (C100_idle_arguments _ _ _).1 h
      · cases h
      · cases h with
        | last h => cases h
        | cons h h2 =>
          cases h
          cases h2 with
          | last h => cases h
          | cons h => cases h

/-- C101, negative: the comma after a declaration can be left out, `[a: T = 0 b]`. -/
theorem C101_missing_comma_violated : ∃ l, parseLocalResources exSyn [.bracket [.ident 1, .colon, .ident 105, .eq, .int 0 false, .ident 2]] = some (l, []) ∧ l.map Prod.fst = [1, 2] := ⟨_, rfl, rfl⟩

def exAttr : Attr := { path := Path.just 300, args := some [] }
def exCfg : Attr := { path := Path.just Verif.Signature.Kw.cfg, args := some [] }

/-- C101, negative: attributes of resources are dropped, depending on the place: an attribute of the last of the local resources is ignored, of the others refused; `#[cfg]` is ignored on all of
them, and everything on shared resources. -/
theorem C101_attributes_dropped_violated :
    parseLocalResources exSyn [.bracket [.attr exAttr, .ident 1]] = some ([(1, .external)], []) ∧
    parseLocalResources exSyn [.bracket [.attr exAttr, .ident 1, .comma]] = none ∧
    parseLocalResources exSyn [.bracket [.attr exCfg, .ident 1, .comma]] = some ([(1, .external)], []) ∧
    parseSharedResources exSyn [.bracket [.attr exCfg, .ident 1]] = some ([(1, .exclusive)], []) := ⟨rfl, rfl, rfl, rfl⟩

/-- C101, negative: on a hardware task `local_task` is accepted and has no effect. -/
theorem C101_local_task_ignored_violated (syn : Syn) {ts as h} (hl : CommaList (Arg syn) ts as) (hr : taskArgs syn ts = some (.inl h)) (hn : ∀ b, .localTask b ∉ as) :
    taskArgs syn (.ident Kw.localTask :: .comma :: ts) = some (.inl h) := by
  obtain ⟨as', hl', hm⟩ := (C100_task_arguments _ _ _).1 hr
  rw [CommaList.unique (item := Arg syn) arg_unique arg_lt hl' hl] at hm
  refine (C100_task_arguments _ _ _).2 ⟨.localTask true :: as, .cons (.localTask (by intro r' e; cases e)) hl, ?_⟩
  have hv : ∀ {α : Type} {c : α → GArg} {d v : α}, (∀ v b, c v ≠ .localTask b) → ValueOr c d as v → ValueOr c d (.localTask true :: as) v := by
    intro α c d v hne hv
    rcases hv with h | ⟨h, e⟩
    · exact .inl (List.mem_cons_of_mem _ h)
    · refine .inr ⟨fun v hv => ?_, e⟩
      rcases List.mem_cons.1 hv with e | hv'
      · exact hne _ _ e
      · exact h v hv'
  cases hm with
  | hardware h1 h2 h3 h4 h5 h6 =>
    refine .hardware ⟨?_, ?_, ?_, ?_⟩ (List.mem_cons_of_mem _ h2) (hv (by simp) h3) h4 (hv (by simp) h5) (hv (by simp) h6)
    · rw [List.map_cons, List.nodup_cons]
      refine ⟨?_, h1.once⟩
      intro hmem
      obtain ⟨a, ha, hk⟩ := List.mem_map.1 hmem
      cases a with
      | localTask b => exact hn b ha
      | _ => cases hk
    · intro n hx; exact h1.priority n (by simpa using hx)
    · intro n hx; exact h1.shared n (by simpa using hx)
    · intro n hx; exact h1.locals n (by simpa using hx)

example : ∃ h, taskArgs exSyn exTask = some (.inl h) ∧ taskArgs exSyn (.ident Kw.localTask :: .comma :: exTask) = some (.inl h) := ⟨_, rfl, rfl⟩

/-- C101 (what holds): of a declared local resource every attribute except doc comments is kept; a resource that is not declared has no attributes other than `#[cfg]` and docs unless it is the
last one; every entry but a declaration is followed by a comma or is the last one. -/
theorem C101_entries_kept_partial (syn : Syn) {ts i v r} (h : LocalItem syn ts (i, v) r) :
    (∃ attrs cfgs ty e as, v = .declared attrs cfgs ty e ∧ (∃ r', syn.exprPath ts = some ((as, Path.just i), .colon :: r')) ∧
      ∀ a ∈ as, IsAttr Verif.Signature.Kw.doc a ∨ a ∈ cfgs ∧ IsAttr Verif.Signature.Kw.cfg a ∨ a ∈ attrs) ∨
    v = .external ∧ ((∃ as, syn.exprPath ts = some ((as, Path.just i), .comma :: r) ∧ ∀ a ∈ as, IsAttr Verif.Signature.Kw.doc a ∨ IsAttr Verif.Signature.Kw.cfg a) ∨
      ∃ as, syn.exprPath ts = some ((as, Path.just i), []) ∧ r = []) := by
  have kept : ∀ {l cfgs rest}, Split l cfgs rest → ∀ a ∈ l, IsAttr Verif.Signature.Kw.doc a ∨ a ∈ cfgs ∧ IsAttr Verif.Signature.Kw.cfg a ∨ a ∈ rest := by
    intro l cfgs rest hs
    induction hs with
    | nil => intro a ha; cases ha
    | cfg h _ ih =>
      intro a ha
      rcases List.mem_cons.1 ha with e | ha'
      · subst e; exact .inr (.inl ⟨List.mem_cons_self, h⟩)
      · rcases ih a ha' with h | ⟨h1, h2⟩ | h
        · exact .inl h
        · exact .inr (.inl ⟨List.mem_cons_of_mem _ h1, h2⟩)
        · exact .inr (.inr h)
    | doc h _ ih =>
      intro a ha
      rcases List.mem_cons.1 ha with e | ha'
      · subst e; exact .inl h
      · exact ih a ha'
    | other _ _ _ ih =>
      intro a ha
      rcases List.mem_cons.1 ha with e | ha'
      · subst e; exact .inr (.inr List.mem_cons_self)
      · rcases ih a ha' with h | h | h
        · exact .inl h
        · exact .inr (.inl h)
        · exact .inr (.inr (List.mem_cons_of_mem _ h))
  cases h with
  | declared h1 h2 h3 h4 h5 h6 => exact .inl ⟨_, _, _, _, _, rfl, ⟨_, h1⟩, kept h6⟩
  | declaredComma h1 h2 h3 h4 h6 => exact .inl ⟨_, _, _, _, _, rfl, ⟨_, h1⟩, kept h6⟩
  | external h1 h6 =>
    refine .inr ⟨rfl, .inl ⟨_, h1, ?_⟩⟩
    intro a ha
    rcases kept h6 a ha with h | ⟨-, h⟩ | h
    · exact .inl h
    · exact .inr h
    · cases h
  | last h1 => exact .inr ⟨rfl, .inr ⟨_, h1, rfl⟩⟩

example : LocalItem exSyn [.attr exAttr, .ident 1, .colon, .ident 105, .eq, .int 0 false] (1, .declared [exAttr] [] 105 (.other 0)) [] := (localEntry_iff _ _ _ _).1 rfl

end Verif.Grammar
