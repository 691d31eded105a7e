import Verif.Escape.Defs

/-! # C98: references to resources never alias, whatever the tasks keep -/

namespace Verif.Escape
open Verif.Analysis (Ident Target has get?)
open Verif.Signature

theorem expand_app {code : Ty → Analysis.Ty} {tg : Target} {bits : Nat} {ds : List Ident} {items : List SItem} {p : Analysis.Program} {defs defs' : List Def} {app : Analysis.App}
    (h : expandApp code tg bits ds items = .ok (p, defs')) (ha : parseApp code ds items = .ok (app, defs)) :
    ∃ raw, Analysis.parse raw = .ok app ∧ Analysis.expand tg bits raw = .ok p := by
  obtain ⟨⟨app', d⟩, h1, h⟩ := Analysis.bind_ok h
  simp only at h
  rw [ha] at h1
  cases h1
  obtain ⟨is, hr, hp⟩ := parseApp_iff.mp ⟨_, ha⟩
  refine ⟨_, hp, ?_⟩
  obtain ⟨u, h2, h⟩ := Analysis.bind_ok h
  obtain ⟨base, h3, h⟩ := Analysis.bind_ok h
  obtain ⟨u', h4, h⟩ := Analysis.bind_ok h
  obtain ⟨an, h5, h⟩ := Analysis.bind_ok h
  obtain ⟨p', h6, h⟩ := Analysis.bind_ok h
  split at h
  · next hf =>
    cases h
    unfold Analysis.expand
    rw [Analysis.bind_eq hp, Analysis.bind_eq h2, Analysis.bind_eq h3, Analysis.bind_eq h4, Analysis.bind_eq h5, Analysis.bind_eq h6, if_pos hf]; rfl
  · cases h

/-- **C98** In every execution of an accepted application that compiles, however the tasks keep the references they were given (those of type `&'static` for ever), and whatever resources are locked: of any two references to resources that exist
at the same time and are to the same resource, both are shared references. Missing for the full claim: extern tasks declared with `-> !` that return a type with an instance of `Into<Infallible>` written by the user, see `C98_static_alias_violated`. -/
theorem C98_references_never_alias_partial {code : Ty → Analysis.Ty} {tg : Target} {bits : Nat} {ds : List Ident} {items : List SItem} {p : Analysis.Program} {defs : List Def} {app : Analysis.App}
    (h : expandApp code tg bits ds items = .ok (p, defs)) (ha : parseApp code ds items = .ok (app, defs)) {out : Ident → Output}
    (hc : ∀ d ∈ defs, has app.sw d.name = true → compilesTask d (out d.name) = true) (hu : ∀ n, out n ≠ .user true) {s : St} (hs : Reach (frames app defs out) s) :
    s.all.Pairwise Ok := by
  obtain ⟨raw, hp, he⟩ := expand_app h ha
  obtain ⟨hf, hsays⟩ := facts he hp
  refine all_ok (good hsays hf ?_) hs
  intro n t hm hb
  unfold isBottom at hb
  obtain ⟨d, hd, hb⟩ := List.any_eq_true.mp hb
  simp only [Bool.and_eq_true, beq_iff_eq] at hb
  obtain ⟨rfl, hbt⟩ := hb
  have := hc d hd (Analysis.has_iff.mpr ⟨t, hm⟩)
  unfold compilesTask at this
  have hn := hu d.name
  rw [hbt] at this
  cases ho : out d.name with
  | unit => rw [ho] at this; revert this; cases d.isExtern <;> decide
  | never => rfl
  | infallible => rfl
  | user b =>
    rw [ho] at this hn
    cases b with
    | true => exact absurd rfl hn
    | false => revert this; cases d.isExtern <;> decide

/-- **C98** A software task has a context with lifetime `'static` if and only if it is declared with `-> !`. -/
theorem C98_static_context_iff_diverges {code : Ty → Analysis.Ty} {ds : List Ident} {items : List SItem} {defs : List Def} {app : Analysis.App}
    (h : parseApp code ds items = .ok (app, defs)) {out : Ident → Output} {ext : Bool} {f : Fn} (hf : FnOf items ext f) (hsw : IsSoftware f) {fr : Frame} (hfr : fr ∈ frames app defs out) (hn : fr.name = f.name) :
    fr.kind = .software ∧ (fr.ctx = true ↔ Diverges f.output) := by
  obtain ⟨hnd, hk⟩ := parse_defs h
  obtain ⟨d, hd, e1, e2, e3⟩ := hk ext f hf hsw
  obtain ⟨is, hr, hp⟩ := parseApp_iff.mp ⟨_, h⟩
  have hs := Analysis.says_of_parse hp
  -- the task is in the application
  have hin : ∃ t, (f.name, t) ∈ app.sw := by
    obtain ⟨i, hi, hmem⟩ : ∃ i, ReadsFn code ext f i ∧ i ∈ is := by
      cases ext with
      | false =>
        obtain ⟨a, h1, h2⟩ := mem_reads hr (show SItem.fn f ∈ items from hf)
        cases h1 with
        | fn h1 => exact ⟨_, h1, h2 _ List.mem_cons_self⟩
      | true =>
        obtain ⟨abi, fs, h1, h2⟩ : ∃ abi fs, SItem.foreign abi fs ∈ items ∧ FItem.fn f ∈ fs := hf
        obtain ⟨a, h3, h4⟩ := mem_reads hr h1
        cases h3 with
        | foreign _ h5 =>
          obtain ⟨i, h6, h7⟩ := mem_foreign h5 h2
          exact ⟨i, h6, h4 _ h7⟩
    obtain ⟨g1, g2, args, g3, g4⟩ := hsw
    obtain ⟨at0, hat, rfl⟩ := marked_iff.mp g3
    have key : ∀ {as args' ins ok}, .task f.name args' as ins ok ∈ is → (∀ b, .binds b ∉ args') → ∃ t, (f.name, t) ∈ app.sw := by
      intro as args' ins ok hmem hb
      by_cases hl : ∃ b, Analysis.TaskArg.localTask b ∈ args'
      · obtain ⟨b, hb'⟩ := hl
        obtain ⟨t, ht, -⟩ := (hs.localTask f.name b ins).mp ⟨args', as, ok, hmem, hb, .inl hb'⟩
        exact ⟨t, ht⟩
      · obtain ⟨t, ht, -⟩ := (hs.localTask f.name false ins).mp ⟨args', as, ok, hmem, hb, .inr ⟨rfl, fun b hb' => hl ⟨b, hb'⟩⟩⟩
        exact ⟨t, ht⟩
    cases hi with
    | init a => obtain ⟨x, hx, -⟩ := marked_iff.mp a; rw [unmarked_iff.mp g1] at hx; cases hx
    | idle _ a => obtain ⟨x, hx, -⟩ := marked_iff.mp a; rw [unmarked_iff.mp g2] at hx; cases hx
    | hardware _ _ a _ hb =>
      obtain ⟨x, hx, rfl⟩ := marked_iff.mp a
      rw [hat] at hx; cases hx
      exact absurd hb (g4 _)
    | software _ _ a _ hb => exact key hmem hb
    | other _ _ _ a => rw [unmarked_iff.mp a] at hat; cases hat
  obtain ⟨t, ht⟩ := hin
  have hfr' : frame app .software t.priority (isBottom defs f.name) (out f.name).inhabited f.name t.shared t.locals ∈ frames app defs out := by
    unfold frames
    exact List.mem_append_right _ (List.mem_map.mpr ⟨(f.name, t), ht, rfl⟩)
  have e := names_unique hs hfr hfr' hn
  subst e
  refine ⟨rfl, ?_⟩
  rw [← e3]
  show isBottom defs f.name = true ↔ _
  unfold isBottom
  rw [List.any_eq_true]
  constructor
  · rintro ⟨d', hd', hb⟩
    simp only [Bool.and_eq_true, beq_iff_eq] at hb
    rw [unique_def hnd hd hd' (e1.trans hb.1.symm)]
    exact hb.2
  · intro hb
    exact ⟨d, hd, by simp [e1, hb]⟩

/-! ## a concrete application -/

/-- As `ui/extern-..` and `examples/static-exec.rs`: `init` declares a local resource (70), hardware tasks 34 and 35 use lock-free resource 40 at the same priority, `idle` and task 31 read 41, 34 and 30 lock 42, task 30 (diverging) uses local resource 43,
task 31 has declared one of the same name. -/
def exItems : List SItem := [
  .struct [at_ Kw.shared] 20 (some [{ name := 40, ty := named 100, attrs := [at_ Kw.lockFree] }, { name := 41, ty := named 101 }, { name := 42, ty := named 102 }]),
  .struct [at_ Kw.locals] 21 (some [{ name := 43, ty := named 103 }]),
  .fn { attrs := [at_ Kw.init [.locals [(70, .declared 5)]]], name := Kw.init, inputs := [cx Kw.init], output := .type (.tuple [named 20, named 21]) },
  .fn { attrs := [at_ Kw.idle [.shared [(41, .shared)]]], name := Kw.idle, inputs := [cx Kw.idle], output := .type .never },
  .fn { attrs := [at_ Kw.task [.priority 2, .locals [(43, .external)], .shared [(42, .exclusive)]]], name := 30, isAsync := true, inputs := [cx 30 (.angle [.lifetime Kw.static])], output := .type .never },
  .fn { attrs := [at_ Kw.task [.priority 1, .locals [(44, .declared 6)], .shared [(41, .shared)]]], name := 31, isAsync := true, inputs := [cx 31] },
  .fn { attrs := [at_ Kw.task [.binds 52, .priority 2, .shared [(40, .exclusive), (42, .exclusive)]]], name := 34, inputs := [cx 34] },
  .fn { attrs := [at_ Kw.task [.binds 53, .priority 2, .shared [(40, .exclusive)]]], name := 35, inputs := [cx 35] }]

def exOut (n : Ident) : Output := if n = 30 then .never else .unit

/-- what is checked below of the result -/
def okAnd (r : Analysis.Res (Analysis.App × List Def)) (q : Analysis.App → List Def → Bool) : Bool :=
  match r with
  | .ok (a, d) => q a d
  | .error _ => false

theorem okAnd_true {r : Analysis.Res (Analysis.App × List Def)} {q : Analysis.App → List Def → Bool} (h : okAnd r q = true) : ∃ a d, r = .ok (a, d) ∧ q a d = true := by
  cases r with
  | ok x => exact ⟨x.1, x.2, rfl, h⟩
  | error e => cases h

def accepted (r : Analysis.Res (Analysis.Program × List Def)) : Bool :=
  match r with
  | .ok _ => true
  | .error _ => false

theorem accepted_true {code : Ty → Analysis.Ty} {tg : Target} {bits : Nat} {ds : List Ident} {items : List SItem} {app : Analysis.App} {defs : List Def}
    (h : accepted (expandApp code tg bits ds items) = true) (ha : parseApp code ds items = .ok (app, defs)) : ∃ p, expandApp code tg bits ds items = .ok (p, defs) := by
  cases hr : expandApp code tg bits ds items with
  | ok x =>
    obtain ⟨p, d⟩ := x
    obtain ⟨⟨app', d'⟩, h1, h2⟩ := Analysis.bind_ok (show (_ : Analysis.Res (Analysis.Program × List Def)) = _ from hr)
    rw [ha] at h1
    cases h1
    simp only at h2
    obtain ⟨_, _, h2⟩ := Analysis.bind_ok h2
    obtain ⟨_, _, h2⟩ := Analysis.bind_ok h2
    obtain ⟨_, _, h2⟩ := Analysis.bind_ok h2
    obtain ⟨_, _, h2⟩ := Analysis.bind_ok h2
    obtain ⟨_, _, h2⟩ := Analysis.bind_ok h2
    split at h2
    · cases h2; exact ⟨_, rfl⟩
    · cases h2
  | error e => rw [hr] at h; cases h

/-- The application is accepted and compiles; it runs: `init`, `idle`, then task 30 (which keeps its reference for ever), preempted by task 34, which locks 42. Five references exist. -/
example : ∃ p app defs, expandApp exCode exTg 4 [50, 51] exItems = .ok (p, defs) ∧ parseApp exCode [50, 51] exItems = .ok (app, defs) ∧
    (∀ d ∈ defs, has app.sw d.name = true → compilesTask d (exOut d.name) = true) ∧ (∀ n, exOut n ≠ .user true) ∧
    ∃ s, Reach (frames app defs exOut) s ∧ s.all = [⟨.shared 40, true, false⟩, ⟨.localRes 43, true, true⟩, ⟨.shared 41, false, false⟩, ⟨.declared Kw.init 70, true, true⟩, ⟨.shared 42, true, false⟩] := by
  obtain ⟨app, defs, ha, hq⟩ := okAnd_true (r := parseApp exCode [50, 51] exItems)
    (q := fun a d => d.all (fun x => !has a.sw x.name || compilesTask x (exOut x.name)) &&
      decide ((frames a d exOut).map (fun f => (f.name, f.kind, f.prio, f.returns)) = [(Kw.init, .init, 0, true), (Kw.idle, .idle, 0, false), (34, .hardware, 2, true), (35, .hardware, 2, true), (30, .software, 2, false), (31, .software, 1, true)]) &&
      decide ((frames a d exOut).map (fun f => (f.refs, f.proxies)) = [([⟨.declared Kw.init 70, true, true⟩], []), ([⟨.shared 41, false, false⟩], []), ([⟨.shared 40, true, false⟩], [42]), ([⟨.shared 40, true, false⟩], []),
        ([⟨.localRes 43, true, true⟩], [42]), ([⟨.declared 31 44, true, false⟩, ⟨.shared 41, false, false⟩], [])])) (by decide +kernel)
  obtain ⟨p, hp⟩ := accepted_true (code := exCode) (tg := exTg) (bits := 4) (by decide +kernel) ha
  simp only [Bool.and_eq_true, decide_eq_true_eq] at hq
  obtain ⟨⟨h1, h2⟩, h3⟩ := hq
  refine ⟨p, app, defs, hp, ha, ?_, ?_, ?_⟩
  · intro d hd hs
    have := List.all_eq_true.mp h1 d hd
    simpa [hs] using this
  · intro n; unfold exOut; split <;> intro h <;> cases h
  · obtain ⟨f1, f2, f3, f4, f5, f6, hf⟩ : ∃ f1 f2 f3 f4 f5 f6, frames app defs exOut = [f1, f2, f3, f4, f5, f6] := by
      match hfr : frames app defs exOut with
      | [f1, f2, f3, f4, f5, f6] => exact ⟨f1, f2, f3, f4, f5, f6, rfl⟩
      | [] | [_] | [_, _] | [_, _, _] | [_, _, _, _] | [_, _, _, _, _] => rw [hfr] at h2; simp at h2
      | _ :: _ :: _ :: _ :: _ :: _ :: _ :: _ => rw [hfr] at h2; simp at h2
    rw [hf] at h2 h3 ⊢
    simp only [List.map_cons, List.map_nil, List.cons.injEq, Prod.mk.injEq, and_true] at h2 h3
    obtain ⟨⟨n1, k1, q1, r1⟩, ⟨n2, k2, q2, r2⟩, ⟨n3, k3, q3, r3⟩, ⟨n4, k4, q4, r4⟩, ⟨n5, k5, q5, r5⟩, ⟨n6, k6, q6, r6⟩⟩ := h2
    obtain ⟨⟨a1, b1⟩, ⟨a2, b2⟩, ⟨a3, b3⟩, ⟨a4, b4⟩, ⟨a5, b5⟩, ⟨a6, b6⟩⟩ := h3
    have s0 : Reach [f1, f2, f3, f4, f5, f6] {} := .nil
    have s1 := s0.step (.start _ f1 (by simp) (by simp) (by simp) (by intro h; rw [k1] at h; cases h))
    have s2 := s1.step (.finish _ f1 (by simp) (by simp) r1 (by simp))
    have s3 := s2.step (.start _ f2 (by simp) (by simp [Kw.init, Kw.idle, n1, n2]) (by simp [Kw.init, Kw.idle, n1, n2]) (by intro h; rw [k2] at h; cases h))
    have s4 := s3.step (.start _ f5 (by simp) (by simp [Kw.init, Kw.idle, n1, n2, n5]) (by simp [Kw.init, Kw.idle, n1, n2, n5]) (by intro h; rw [k5] at h; cases h))
    have s5 := s4.step (.start _ f3 (by simp) (by simp [Kw.init, Kw.idle, n1, n2, n3, n5]) (by simp [Kw.init, Kw.idle, n1, n2, n3, n5]) (by
      intro _ g hg hk hgn
      simp only [List.mem_cons, List.not_mem_nil, or_false] at hg
      exfalso
      rcases hg with e | e | e | e | e | e <;> subst e <;> revert hgn <;> revert hk <;> simp [Kw.init, Kw.idle, n1, n2, n3, n4, n5, n6, k1, k2, k5, k6]))
    have s6 := s5.step (.lock _ f3 42 (by simp) (by simp) (by rw [b3]; simp) (by simp))
    refine ⟨_, s6, ?_⟩
    simp [St.all, a1, a2, a3, a5, n1]

/-- Diverging functions of `extern` blocks compile with `-> !` and with `Infallible`, not if they return; functions of the module only with what they declare. -/
example : let d (ext bot : Bool) : Def := { name := 33, context := 0, isExtern := ext, isBottom := bot }
    compilesTask (d true true) .never = true ∧ compilesTask (d true true) .infallible = true ∧ compilesTask (d true true) .unit = false ∧ compilesTask (d true true) (.user false) = false ∧ compilesTask (d true false) .unit = true ∧
    compilesTask (d false true) .never = true ∧ compilesTask (d false true) .unit = false ∧ compilesTask (d false false) .unit = true ∧ compilesTask (d false false) .never = false := by decide

/-- A resource may be locked again after it has been unlocked, and a function that has returned may be called again. -/
example : let f (n : Ident) : Frame := { name := n, kind := .software, prio := 1, ctx := false, returns := true, refs := [], proxies := [42] }
    ∃ s, Reach [f 30, f 31] s ∧ s.locked = [(31, 42)] ∧ s.active = [30, 31] ∧ s.started = [30, 31, 30] := by
  refine ⟨_, ((((((Reach.nil.step (.start _ _ (.head _) ?_ ?_ ?_)).step (.lock _ _ 42 (.head _) ?_ ?_ ?_)).step (.unlock _ 30 42 ?_)).step (.start _ _ (.tail _ (.head _)) ?_ ?_ ?_)).step (.lock _ _ 42 (.tail _ (.head _)) ?_ ?_ ?_)).step
    (.finish _ _ (.head _) ?_ rfl ?_)).step (.start _ _ (.head _) ?_ ?_ ?_), ?_⟩ <;> simp [Kind.runsOnce]

/-! ## the hole -/

/-- An extern task (33), declared with `-> !`, that uses a local resource (43). -/
def holeItems : List SItem := [
  .struct [at_ Kw.shared] 20 (some []),
  .struct [at_ Kw.locals] 21 (some [{ name := 43, ty := named 103 }]),
  .fn { attrs := [at_ Kw.init], name := Kw.init, inputs := [cx Kw.init], output := .type (.tuple [named 20, named 21]) },
  .foreign { name := some Kw.rust } [
    .fn { attrs := [at_ Kw.task [.priority 1, .locals [(43, .external)]]], name := 33, isAsync := true, inputs := [cx 33 (.angle [.lifetime Kw.static])], output := .type .never }]]

/-- **C98 (violated)** `assert_task_diverges` accepts every output type that converts into `Infallible`, and users can write `impl From<Mine> for Infallible` for a type of their own: then a task declared with `-> !` returns, keeps its
`&'static mut` reference, is spawned again and gets a second one. -/
theorem C98_static_alias_violated : ∃ p app defs out, expandApp exCode exTg 4 [50] holeItems = .ok (p, defs) ∧ parseApp exCode [50] holeItems = .ok (app, defs) ∧
    (∀ d ∈ defs, has app.sw d.name = true → compilesTask d (out d.name) = true) ∧ ∃ s, Reach (frames app defs out) s ∧ s.all = [⟨.localRes 43, true, true⟩, ⟨.localRes 43, true, true⟩] := by
  obtain ⟨app, defs, ha, hq⟩ := okAnd_true (r := parseApp exCode [50] holeItems)
    (q := fun a d => d.all (fun x => !has a.sw x.name || compilesTask x (.user true)) &&
      decide ((frames a d fun _ => .user true).map (fun f => (f.name, f.kind, f.returns, f.refs)) = [(Kw.init, .init, true, []), (33, .software, true, [⟨.localRes 43, true, true⟩])])) (by decide +kernel)
  obtain ⟨p, hp⟩ := accepted_true (code := exCode) (tg := exTg) (bits := 4) (by decide +kernel) ha
  simp only [Bool.and_eq_true, decide_eq_true_eq] at hq
  obtain ⟨h1, h2⟩ := hq
  refine ⟨p, app, defs, fun _ => .user true, hp, ha, ?_, ?_⟩
  · intro d hd hs
    have := List.all_eq_true.mp h1 d hd
    simpa [hs] using this
  · obtain ⟨f1, f2, hf⟩ : ∃ f1 f2, frames app defs (fun _ => .user true) = [f1, f2] := by
      match hfr : frames app defs (fun _ => .user true) with
      | [f1, f2] => exact ⟨f1, f2, rfl⟩
      | [] | [_] => rw [hfr] at h2; simp at h2
      | _ :: _ :: _ :: _ => rw [hfr] at h2; simp at h2
    rw [hf] at h2 ⊢
    simp only [List.map_cons, List.map_nil, List.cons.injEq, Prod.mk.injEq, and_true] at h2
    obtain ⟨⟨n1, k1, r1, a1⟩, ⟨n2, k2, r2, a2⟩⟩ := h2
    have s1 := (Reach.nil (fs := [f1, f2])).step (.start _ f2 (by simp) (by simp) (by simp) (by intro h; rw [k2] at h; cases h))
    have s2 := s1.step (.finish _ f2 (by simp) (by simp) r2 (by simp))
    have s3 := s2.step (.start _ f2 (by simp) (by simp) (by intro h; rw [k2] at h; cases h) (by intro h; rw [k2] at h; cases h))
    refine ⟨_, s3, ?_⟩
    simp [St.all, a2, n2]

end Verif.Escape
