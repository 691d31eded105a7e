import Verif.Grammar.Spec

/-!
# Lemmas about the loops
-/

namespace Verif.Grammar
open Verif.Analysis (Ident Access Map has)
open Verif.Signature (Attr Path Seg IsAttr attrEq filterAttributes)

/-! ## comma separated lists -/

theorem commaLoop_iff {σ α : Type} {arg : σ → List Tok → Option (σ × List Tok)} {item : List Tok → α → List Tok → Prop} {sem : σ → α → Option σ}
    (H : ∀ s ts s' r, arg s ts = some (s', r) ↔ ∃ a, item ts a r ∧ sem s a = some s') (L : ∀ ts a r, item ts a r → r.length < ts.length) :
    ∀ n s ts s', ts.length ≤ n → (commaLoop arg n s ts = some s' ↔ ∃ as, CommaList item ts as ∧ as.foldlM sem s = some s') := by
  intro n
  induction n with
  | zero =>
    intro s ts s' hn
    have : ts = [] := List.length_eq_zero_iff.1 (by omega)
    subst this
    simp only [commaLoop]
    constructor
    · intro h; cases h; exact ⟨[], .nil, rfl⟩
    · rintro ⟨as, hl, hf⟩
      cases hl with
      | nil => simpa using hf
      | last h => exact absurd (L _ _ _ h) (by simp)
      | cons h => exact absurd (L _ _ _ h) (by simp)
  | succ n ih =>
    intro s ts s' hn
    cases ts with
    | nil =>
      simp only [commaLoop]
      constructor
      · intro h; cases h; exact ⟨[], .nil, rfl⟩
      · rintro ⟨as, hl, hf⟩
        cases hl with
        | nil => simpa using hf
        | last h => exact absurd (L _ _ _ h) (by simp)
        | cons h => exact absurd (L _ _ _ h) (by simp)
    | cons t ts =>
      simp only [commaLoop]
      constructor
      · intro h
        split at h
        next s1 e =>
          cases h
          obtain ⟨a, hi, hs⟩ := (H _ _ _ _).1 e
          exact ⟨[a], .last hi, by simp [hs]⟩
        next s1 r e =>
          obtain ⟨a, hi, hs⟩ := (H _ _ _ _).1 e
          have := L _ _ _ hi
          simp only [List.length_cons] at this hn
          obtain ⟨as, hl, hf⟩ := (ih s1 r s' (by omega)).1 h
          exact ⟨a :: as, .cons hi hl, by simp [hs, hf]⟩
        next => cases h
      · rintro ⟨as, hl, hf⟩
        cases hl with
        | last h =>
          rename_i x
          simp only [List.foldlM_cons, List.foldlM_nil] at hf
          cases hs : sem s x with
          | none => rw [hs] at hf; cases hf
          | some s1 =>
            rw [hs] at hf
            cases hf
            rw [(H s _ s' []).2 ⟨x, h, hs⟩]
        | cons h hl =>
          rename_i x r xs
          simp only [List.foldlM_cons] at hf
          cases hs : sem s x with
          | none => rw [hs] at hf; cases hf
          | some s1 =>
            rw [hs] at hf
            rw [(H s _ s1 _).2 ⟨x, h, hs⟩]
            have := L _ _ _ h
            simp only [List.length_cons] at this hn
            exact (ih s1 r s' (by omega)).2 ⟨xs, hl, hf⟩

theorem strictLoop_iff {α : Type} {arg : St → List Tok → Option (St × List Tok)} {item : List Tok → α → List Tok → Prop} {sem : St → α → Option St}
    (H : ∀ s ts s' r, arg s ts = some (s', r) ↔ ∃ a, item ts a r ∧ sem s a = some s') (L : ∀ ts a r, item ts a r → r.length < ts.length) :
    ∀ n s ts s', ts.length ≤ n → (strictLoop arg n s ts = some s' ↔ ∃ as, StrictList item ts as ∧ as.foldlM sem s = some s') := by
  intro n
  induction n with
  | zero =>
    intro s ts s' hn
    have : ts = [] := List.length_eq_zero_iff.1 (by omega)
    subst this
    simp only [strictLoop]
    constructor
    · intro h; cases h
    · rintro ⟨as, hl, hf⟩
      cases hl with
      | last h => exact absurd (L _ _ _ h) (by simp)
      | cons h => exact absurd (L _ _ _ h) (by simp)
  | succ n ih =>
    intro s ts s' hn
    simp only [strictLoop]
    constructor
    · intro h
      split at h
      next s1 e =>
        cases h
        obtain ⟨a, hi, hs⟩ := (H _ _ _ _).1 e
        exact ⟨[a], .last hi, by simp [hs]⟩
      next s1 r e =>
        obtain ⟨a, hi, hs⟩ := (H _ _ _ _).1 e
        have := L _ _ _ hi
        simp only [List.length_cons] at this hn
        obtain ⟨as, hl, hf⟩ := (ih s1 r s' (by omega)).1 h
        exact ⟨a :: as, .cons hi hl, by simp [hs, hf]⟩
      next => cases h
    · rintro ⟨as, hl, hf⟩
      cases hl with
      | last h =>
        rename_i x
        simp only [List.foldlM_cons, List.foldlM_nil] at hf
        cases hs : sem s x with
        | none => rw [hs] at hf; cases hf
        | some s1 =>
          rw [hs] at hf
          cases hf
          rw [(H s _ s' []).2 ⟨x, h, hs⟩]
      | cons h hl =>
        rename_i x r xs
        simp only [List.foldlM_cons] at hf
        cases hs : sem s x with
        | none => rw [hs] at hf; cases hf
        | some s1 =>
          rw [hs] at hf
          rw [(H s _ s1 _).2 ⟨x, h, hs⟩]
          have := L _ _ _ h
          simp only [List.length_cons] at this hn
          exact (ih s1 r s' (by omega)).2 ⟨xs, hl, hf⟩

/-! ## lists of names -/

/-- the common shape of `sharedStep` and `dispatcherStep` -/
def stepOf {β : Type} (f : Expr → Option (Ident × β)) (m : Map β) (e : Expr) : Option (Map β) :=
  match f e with
  | some kv => if has m kv.1 then none else some (m ++ [kv])
  | none => none

theorem has_iff {β : Type} (m : Map β) (k : Ident) : has m k = true ↔ k ∈ m.map Prod.fst := by
  induction m with
  | nil => simp [has, Verif.Analysis.get?]
  | cons kv m ih =>
    obtain ⟨k', v⟩ := kv
    simp only [has, Verif.Analysis.get?, List.lookup_cons, List.map_cons, List.mem_cons] at ih ⊢
    by_cases hk : k = k'
    · subst hk; simp
    · have : (k == k') = false := by simpa using hk
      rw [this]
      simp only [hk, false_or]
      exact ih

theorem has_append {β : Type} (m l : Map β) (k : Ident) : has (m ++ l) k = false ↔ has m k = false ∧ has l k = false := by
  have h1 := has_iff (m ++ l) k
  have h2 := has_iff m k
  have h3 := has_iff l k
  simp only [List.map_append, List.mem_append] at h1
  grind

theorem terminated_iff {β : Type} (syn : Syn) (f : Expr → Option (Ident × β)) :
    ∀ n ts m0 m, ts.length ≤ n →
      ((∃ es, terminated syn n ts = some es ∧ es.foldlM (stepOf f) m0 = some m) ↔
        ∃ l, CommaList (fun ts x r => ∃ e, syn.expr ts = some (e, r) ∧ f e = some x) ts l ∧ m = m0 ++ l ∧ (l.map Prod.fst).Nodup ∧ ∀ x ∈ l, has m0 x.1 = false) := by
  intro n
  induction n with
  | zero =>
    intro ts m0 m hn
    have : ts = [] := List.length_eq_zero_iff.1 (by omega)
    subst this
    simp only [terminated]
    constructor
    · rintro ⟨es, h, hf⟩
      cases h
      cases hf
      exact ⟨[], .nil, by simp, by simp, by simp⟩
    · rintro ⟨l, hl, hm, -⟩
      cases hl with
      | nil => exact ⟨[], rfl, by simp [hm]⟩
      | last h => obtain ⟨e, h, -⟩ := h; exact absurd (syn.expr_lt h) (by simp)
      | cons h => obtain ⟨e, h, -⟩ := h; exact absurd (syn.expr_lt h) (by simp)
  | succ n ih =>
    intro ts m0 m hn
    cases ts with
    | nil =>
      simp only [terminated]
      constructor
      · rintro ⟨es, h, hf⟩
        cases h
        cases hf
        exact ⟨[], .nil, by simp, by simp, by simp⟩
      · rintro ⟨l, hl, hm, -⟩
        cases hl with
        | nil => exact ⟨[], rfl, by simp [hm]⟩
        | last h => obtain ⟨e, h, -⟩ := h; exact absurd (syn.expr_lt h) (by simp)
        | cons h => obtain ⟨e, h, -⟩ := h; exact absurd (syn.expr_lt h) (by simp)
    | cons t ts =>
      simp only [terminated]
      constructor
      · rintro ⟨es, h, hf⟩
        split at h
        next e he =>
          cases h
          simp only [List.foldlM_cons, List.foldlM_nil, stepOf] at hf
          cases hx : f e with
          | none => rw [hx] at hf; cases hf
          | some kv =>
            rw [hx] at hf
            cases hh : has m0 kv.1 with
            | true => simp [hh] at hf
            | false =>
              simp [hh] at hf
              exact ⟨[kv], .last ⟨e, he, hx⟩, hf.symm, by simp, by simp [hh]⟩
        next e r he =>
          cases ht : terminated syn n r with
          | none => rw [ht] at h; cases h
          | some es' =>
            rw [ht] at h
            cases h
            simp only [List.foldlM_cons, stepOf] at hf
            cases hx : f e with
            | none => rw [hx] at hf; cases hf
            | some kv =>
              rw [hx] at hf
              cases hh : has m0 kv.1 with
              | true => simp [hh] at hf
              | false =>
                simp [hh] at hf
                have := syn.expr_lt he
                simp only [List.length_cons] at this hn
                obtain ⟨l, hl, hm, hnd, hfr⟩ := (ih r (m0 ++ [kv]) m (by omega)).1 ⟨es', ht, hf⟩
                refine ⟨kv :: l, .cons ⟨e, he, hx⟩ hl, by simp [hm], ?_, ?_⟩
                · simp only [List.map_cons, List.nodup_cons]
                  refine ⟨?_, hnd⟩
                  intro hmem
                  obtain ⟨x, hx1, hx2⟩ := List.mem_map.1 hmem
                  have := ((has_append _ _ _).1 (hfr x hx1)).2
                  rw [hx2] at this
                  have h2 := (has_iff [kv] kv.1).2 (by simp)
                  rw [this] at h2; cases h2
                · intro x hx
                  rcases List.mem_cons.1 hx with ex | hx'
                  · subst ex; exact hh
                  · exact ((has_append _ _ _).1 (hfr x hx')).1
        next => cases h
      · rintro ⟨l, hl, hm, hnd, hfr⟩
        cases hl with
        | last h =>
          rename_i x
          obtain ⟨e, he, hx⟩ := h
          refine ⟨[e], by rw [he], ?_⟩
          have := hfr x (by simp)
          simp [stepOf, hx, this, hm]
        | cons h hl =>
          rename_i x r xs
          obtain ⟨e, he, hx⟩ := h
          have := syn.expr_lt he
          simp only [List.length_cons] at this hn
          simp only [List.map_cons, List.nodup_cons] at hnd
          obtain ⟨es, ht, hf⟩ := (ih r (m0 ++ [x]) m (by omega)).2 ⟨xs, hl, by simp [hm], hnd.2, by
            intro y hy
            refine (has_append _ _ _).2 ⟨hfr y (by simp [hy]), ?_⟩
            cases hc : has [x] y.1 with
            | false => rfl
            | true =>
              have := (has_iff _ _).1 hc
              simp only [List.map_cons, List.map_nil, List.mem_singleton] at this
              exact absurd (List.mem_map.2 ⟨y, hy, this⟩) hnd.1⟩
          refine ⟨e :: es, by rw [he]; simp [ht], ?_⟩
          have := hfr x (by simp)
          simp [stepOf, hx, this, hf]

theorem CommaList.congr {α : Type} {i j : List Tok → α → List Tok → Prop} (h : ∀ ts x r, i ts x r ↔ j ts x r) {ts l} : CommaList i ts l ↔ CommaList j ts l := by
  have : i = j := by funext ts x r; exact propext (h ts x r)
  rw [this]

/-! ## shared resources -/

theorem resourceName_iff (p : Path) (i : Ident) : resourceName p = some i ↔ p = Path.just i := by
  obtain ⟨lc, segs⟩ := p
  simp only [resourceName, Path.just]
  cases lc with
  | true => simp
  | false =>
    match segs with
    | [] => simp
    | [⟨j, a⟩] => by_cases ha : a = .none <;> simp [ha]
    | _ :: _ :: _ => simp

def namedAccess (e : Expr) : Option (Ident × Access) := (accessOf e).bind fun ap => (resourceName ap.2).map fun i => (i, ap.1)

theorem sharedStep_eq : sharedStep = stepOf namedAccess := by
  funext m e
  simp only [sharedStep, stepOf, namedAccess]
  cases accessOf e with
  | none => rfl
  | some ap =>
    obtain ⟨a, p⟩ := ap
    simp only [Option.bind_eq_bind, Option.bind_some]
    cases resourceName p <;> rfl

theorem namedAccess_iff (e : Expr) (i : Ident) (a : Access) :
    namedAccess e = some (i, a) ↔ (∃ as, e = .path as (Path.just i) ∧ a = .exclusive) ∨ ∃ as, e = .reference false (.path as (Path.just i)) ∧ a = .shared := by
  simp only [namedAccess]
  cases e with
  | path as p =>
    simp only [accessOf, Option.bind_some, Option.map_eq_some_iff, resourceName_iff]
    constructor
    · rintro ⟨j, rfl, h⟩; cases h; exact .inl ⟨as, rfl, rfl⟩
    · rintro (⟨as', h, rfl⟩ | ⟨as', h, -⟩)
      · cases h; exact ⟨i, rfl, rfl⟩
      · cases h
  | reference m e =>
    cases m with
    | true => simp [accessOf]
    | false =>
      cases e with
      | path as p =>
        simp only [accessOf, Option.bind_some, Option.map_eq_some_iff, resourceName_iff]
        constructor
        · rintro ⟨j, rfl, h⟩; cases h; exact .inr ⟨as, rfl, rfl⟩
        · rintro (⟨as', h, -⟩ | ⟨as', h, rfl⟩)
          · cases h
          · cases h; exact ⟨i, rfl, rfl⟩
      | _ => simp [accessOf]
  | other => simp [accessOf]

theorem sharedItem_iff (syn : Syn) (ts : List Tok) (x : Ident × Access) (r : List Tok) :
    (∃ e, syn.expr ts = some (e, r) ∧ namedAccess e = some x) ↔ SharedItem syn ts x r := by
  obtain ⟨i, a⟩ := x
  constructor
  · rintro ⟨e, he, hn⟩
    rcases (namedAccess_iff _ _ _).1 hn with ⟨as, rfl, rfl⟩ | ⟨as, rfl, rfl⟩
    · exact .exclusive he
    · exact .shared he
  · intro h
    cases h with
    | exclusive h => exact ⟨_, h, (namedAccess_iff _ _ _).2 (.inl ⟨_, rfl, rfl⟩)⟩
    | shared h => exact ⟨_, h, (namedAccess_iff _ _ _).2 (.inr ⟨_, rfl, rfl⟩)⟩

theorem parseShared_iff (syn : Syn) (ts : List Tok) (m : Map Access) (r : List Tok) :
    parseSharedResources syn ts = some (m, r) ↔ ∃ inner, ts = .bracket inner :: r ∧ CommaList (SharedItem syn) inner m ∧ (m.map Prod.fst).Nodup := by
  cases ts with
  | nil => simp [parseSharedResources]
  | cons t ts =>
    cases t with
    | bracket inner =>
      have key := terminated_iff syn namedAccess inner.length inner [] m (Nat.le_refl _)
      rw [← sharedStep_eq] at key
      simp only [parseSharedResources, List.cons.injEq, Tok.bracket.injEq]
      constructor
      · intro h
        cases ht : terminated syn inner.length inner with
        | none => rw [ht] at h; cases h
        | some es =>
          rw [ht] at h
          simp only [Option.bind_eq_bind, Option.bind_some] at h
          cases hf : es.foldlM sharedStep [] with
          | none => rw [hf] at h; cases h
          | some m' =>
            rw [hf] at h
            cases h
            obtain ⟨l, hl, hm, hnd, -⟩ := key.1 ⟨es, ht, hf⟩
            simp only [List.nil_append] at hm
            subst hm
            exact ⟨inner, ⟨rfl, rfl⟩, (CommaList.congr (sharedItem_iff syn)).1 hl, hnd⟩
      · rintro ⟨inner', ⟨rfl, rfl⟩, hl, hnd⟩
        obtain ⟨es, ht, hf⟩ := key.2 ⟨m, (CommaList.congr (sharedItem_iff syn)).2 hl, by simp, hnd, by intro x _; simp [has, Verif.Analysis.get?]⟩
        rw [ht]
        simp only [Option.bind_eq_bind, Option.bind_some]
        rw [hf]
        rfl
    | _ => simp [parseSharedResources]

/-! ## local resources -/

theorem attrEq_iff (a : Attr) (n : Ident) : attrEq a n = true ↔ IsAttr n a := by
  obtain ⟨inner, ⟨lc, segs⟩, args⟩ := a
  simp only [attrEq, IsAttr]
  match segs with
  | [] => simp
  | [⟨j, s⟩] => cases inner <;> simp [and_comm]
  | _ :: _ :: _ => simp

theorem filter_fold (l : List Attr) : ∀ s : Verif.Signature.FilterAttrs,
    let f := l.foldl (fun (s : Verif.Signature.FilterAttrs) a => if attrEq a Verif.Signature.Kw.cfg then { s with cfgs := s.cfgs ++ [a] } else if attrEq a Verif.Signature.Kw.doc then { s with docs := s.docs ++ [a] } else { s with attrs := s.attrs ++ [a] }) s
    f.cfgs = s.cfgs ++ l.filter (attrEq · Verif.Signature.Kw.cfg) ∧ f.attrs = s.attrs ++ l.filter (fun a => !attrEq a Verif.Signature.Kw.cfg && !attrEq a Verif.Signature.Kw.doc) := by
  induction l with
  | nil => intro s; simp
  | cons a l ih =>
    intro s
    simp only [List.foldl_cons, List.filter_cons]
    have := ih (if attrEq a Verif.Signature.Kw.cfg then { s with cfgs := s.cfgs ++ [a] } else if attrEq a Verif.Signature.Kw.doc then { s with docs := s.docs ++ [a] } else { s with attrs := s.attrs ++ [a] })
    refine ⟨this.1.trans ?_, this.2.trans ?_⟩
    · by_cases hc : attrEq a Verif.Signature.Kw.cfg = true <;> by_cases hd : attrEq a Verif.Signature.Kw.doc = true <;> simp [hc, hd]
    · by_cases hc : attrEq a Verif.Signature.Kw.cfg = true <;> by_cases hd : attrEq a Verif.Signature.Kw.doc = true <;> simp [hc, hd]

theorem split_filter (l : List Attr) : ∀ cfgs attrs, Split l cfgs attrs ↔
    cfgs = l.filter (attrEq · Verif.Signature.Kw.cfg) ∧ attrs = l.filter (fun a => !attrEq a Verif.Signature.Kw.cfg && !attrEq a Verif.Signature.Kw.doc) := by
  have excl : ∀ a, ¬ (attrEq a Verif.Signature.Kw.cfg = true ∧ attrEq a Verif.Signature.Kw.doc = true) := by
    rintro a ⟨h1, h2⟩
    obtain ⟨-, lc, h1⟩ := (attrEq_iff _ _).1 h1
    obtain ⟨-, lc', h2⟩ := (attrEq_iff _ _).1 h2
    rw [h1] at h2
    simp only [Path.mk.injEq, List.cons.injEq, Seg.mk.injEq] at h2
    exact absurd h2.2.1.1 (by decide)
  induction l with
  | nil =>
    intro cfgs attrs
    constructor
    · intro h; cases h; simp
    · rintro ⟨rfl, rfl⟩; exact .nil
  | cons a l ih =>
    intro cfgs attrs
    constructor
    · intro h
      cases h with
      | cfg ha h =>
        obtain ⟨rfl, rfl⟩ := (ih _ _).1 h
        have hc := (attrEq_iff _ _).2 ha
        simp [hc]
      | doc ha h =>
        obtain ⟨rfl, rfl⟩ := (ih _ _).1 h
        have hd := (attrEq_iff _ _).2 ha
        have hc : attrEq a Verif.Signature.Kw.cfg = false := by
          cases hc : attrEq a Verif.Signature.Kw.cfg with
          | false => rfl
          | true => exact absurd ⟨hc, hd⟩ (excl a)
        simp [hc, hd]
      | other hc hd h =>
        obtain ⟨rfl, rfl⟩ := (ih _ _).1 h
        have hc : attrEq a Verif.Signature.Kw.cfg = false := by
          rw [← Bool.not_eq_true]; intro e; exact hc ((attrEq_iff _ _).1 e)
        have hd : attrEq a Verif.Signature.Kw.doc = false := by
          rw [← Bool.not_eq_true]; intro e; exact hd ((attrEq_iff _ _).1 e)
        simp [hc, hd]
    · rintro ⟨rfl, rfl⟩
      have hr := (ih _ _).2 ⟨rfl, rfl⟩
      by_cases hc : attrEq a Verif.Signature.Kw.cfg = true
      · simp only [List.filter_cons, hc, if_true, Bool.not_true, Bool.false_and]
        exact .cfg ((attrEq_iff _ _).1 hc) hr
      · by_cases hd : attrEq a Verif.Signature.Kw.doc = true
        · simp only [List.filter_cons, hc, hd, Bool.not_true, Bool.and_false]
          exact .doc ((attrEq_iff _ _).1 hd) hr
        · simp only [List.filter_cons, hc, hd]
          exact .other (fun h => hc ((attrEq_iff _ _).2 h)) (fun h => hd ((attrEq_iff _ _).2 h)) hr

theorem split_iff (l cfgs attrs : List Attr) : ((filterAttributes l).cfgs = cfgs ∧ (filterAttributes l).attrs = attrs) ↔ Split l cfgs attrs := by
  have h := filter_fold l {}
  rw [split_filter]
  simp only [filterAttributes]
  simp only [List.nil_append] at h
  rw [h.1, h.2]
  grind

theorem supported_iff (t : GTy) : supported t = true ↔ t.form ≠ .other := by
  obtain ⟨f, i⟩ := t
  cases f <;> simp [supported]

theorem localDecl_some {syn : Syn} {attrs cfgs ts l r} (h : localDecl syn attrs cfgs ts = some (l, r)) :
    ∃ ty r₂ e r₃, syn.ty ts = some (ty, .eq :: r₂) ∧ syn.expr r₂ = some (e, r₃) ∧ ty.form ≠ .other ∧ l = .declared attrs cfgs ty.id e ∧ r = optComma r₃ := by
  simp only [localDecl] at h
  cases ht : syn.ty ts with
  | none => rw [ht] at h; cases h
  | some x =>
    obtain ⟨ty, r1⟩ := x
    rw [ht] at h
    simp only [Option.bind_eq_bind, Option.bind_some] at h
    match r1 with
    | .eq :: r2 =>
      simp only at h
      cases he : syn.expr r2 with
      | none => rw [he] at h; cases h
      | some y =>
        obtain ⟨e, r3⟩ := y
        rw [he] at h
        simp only [Option.bind_some] at h
        split at h
        next hs => cases h; exact ⟨ty, r2, e, r3, rfl, he, (supported_iff _).1 hs, rfl, rfl⟩
        next => cases h
    | [] | .ident _ :: _ | .comma :: _ | .colon :: _ | .amp :: _ | .int _ _ :: _ | .bool _ :: _ | .bracket _ :: _ | .attr _ :: _ | .other _ :: _ => cases h

theorem localEntry_iff (syn : Syn) (ts : List Tok) (kv : Ident × GLocal) (r : List Tok) : localEntry syn ts = some (kv, r) ↔ LocalItem syn ts kv r := by
  constructor
  · intro h
    simp only [localEntry] at h
    cases hp : syn.exprPath ts with
    | none => rw [hp] at h; cases h
    | some x =>
      obtain ⟨⟨as, p⟩, r1⟩ := x
      rw [hp] at h
      simp only [Option.bind_eq_bind, Option.bind_some] at h
      cases hn : resourceName p with
      | none => rw [hn] at h; cases h
      | some name =>
        rw [hn] at h
        simp only [Option.bind_some] at h
        have := (resourceName_iff _ _).1 hn
        subst this
        match r1 with
        | .colon :: r1 =>
          simp only at h
          cases hd : localDecl syn (filterAttributes as).attrs (filterAttributes as).cfgs r1 with
          | none => rw [hd] at h; cases h
          | some y =>
            obtain ⟨l, r'⟩ := y
            rw [hd] at h
            cases h
            obtain ⟨ty, r2, e, r3, h1, h2, h3, rfl, rfl⟩ := localDecl_some hd
            have hs := (split_iff as _ _).1 ⟨rfl, rfl⟩
            match r3 with
            | .comma :: r3 => exact .declaredComma hp h1 h3 h2 hs
            | [] | .eq :: _ | .ident _ :: _ | .colon :: _ | .amp :: _ | .int _ _ :: _ | .bool _ :: _ | .bracket _ :: _ | .attr _ :: _ | .other _ :: _ =>
              exact .declared hp h1 h3 h2 (by intro r hr; cases hr) hs
        | .eq :: _ => cases h
        | .comma :: r1 =>
          simp only at h
          split at h
          next he => cases h; exact .external hp ((split_iff as _ _).1 ⟨rfl, List.isEmpty_iff.1 he⟩)
          next => cases h
        | [] => cases h; exact .last hp
        | .ident _ :: _ | .amp :: _ | .int _ _ :: _ | .bool _ :: _ | .bracket _ :: _ | .attr _ :: _ | .other _ :: _ => cases h
  · intro h
    cases h with
    | declared h1 h2 h3 h4 h5 h6 =>
      obtain ⟨rfl, rfl⟩ := (split_iff _ _ _).2 h6
      have hname : ∀ i, resourceName (Path.just i) = some i := fun i => (resourceName_iff _ _).2 rfl
      have hoc : optComma r = r := by
        match r with
        | .comma :: r3 => exact absurd rfl (h5 r3)
        | [] | .eq :: _ | .ident _ :: _ | .colon :: _ | .amp :: _ | .int _ _ :: _ | .bool _ :: _ | .bracket _ :: _ | .attr _ :: _ | .other _ :: _ => rfl
      simp only [localEntry, h1, Option.bind_eq_bind, Option.bind_some, hname, localDecl, h2, h4, (supported_iff _).2 h3, if_true, hoc]
      rfl
    | declaredComma h1 h2 h3 h4 h6 =>
      obtain ⟨rfl, rfl⟩ := (split_iff _ _ _).2 h6
      have hname : ∀ i, resourceName (Path.just i) = some i := fun i => (resourceName_iff _ _).2 rfl
      simp only [localEntry, h1, Option.bind_eq_bind, Option.bind_some, hname, localDecl, h2, h4, (supported_iff _).2 h3, if_true, optComma]
      rfl
    | external h1 h6 =>
      obtain ⟨rfl, h7⟩ := (split_iff _ _ _).2 h6
      have hname : ∀ i, resourceName (Path.just i) = some i := fun i => (resourceName_iff _ _).2 rfl
      simp only [localEntry, h1, Option.bind_eq_bind, Option.bind_some, hname, h7, List.isEmpty_nil, if_true]
    | last h1 =>
      have hname : ∀ i, resourceName (Path.just i) = some i := fun i => (resourceName_iff _ _).2 rfl
      simp only [localEntry, h1, Option.bind_eq_bind, Option.bind_some, hname]

theorem localItem_lt {syn : Syn} {ts kv r} (h : LocalItem syn ts kv r) : r.length < ts.length := by
  cases h with
  | declared h1 h2 h3 h4 h5 h6 =>
    have a := syn.exprPath_lt h1
    have b := syn.ty_lt h2
    have c := syn.expr_lt h4
    simp only [List.length_cons] at a b c
    omega
  | declaredComma h1 h2 h3 h4 h6 =>
    have a := syn.exprPath_lt h1
    have b := syn.ty_lt h2
    have c := syn.expr_lt h4
    simp only [List.length_cons] at a b c
    omega
  | external h1 h6 => have a := syn.exprPath_lt h1; simp only [List.length_cons] at a; omega
  | last h1 => exact syn.exprPath_lt h1

theorem localLoop_iff (syn : Syn) : ∀ n ts m0 m, ts.length ≤ n →
    (localLoop syn n m0 ts = some m ↔ ∃ l, LocalList syn ts l ∧ m = m0 ++ l ∧ (l.map Prod.fst).Nodup ∧ ∀ x ∈ l, has m0 x.1 = false) := by
  intro n
  induction n with
  | zero =>
    intro ts m0 m hn
    have : ts = [] := List.length_eq_zero_iff.1 (by omega)
    subst this
    simp only [localLoop]
    constructor
    · intro h; cases h; exact ⟨[], .nil, by simp, by simp, by simp⟩
    · rintro ⟨l, hl, hm, -⟩
      cases hl with
      | nil => simp [hm]
      | cons h => exact absurd (localItem_lt h) (by simp)
  | succ n ih =>
    intro ts m0 m hn
    cases ts with
    | nil =>
      simp only [localLoop]
      constructor
      · intro h; cases h; exact ⟨[], .nil, by simp, by simp, by simp⟩
      · rintro ⟨l, hl, hm, -⟩
        cases hl with
        | nil => simp [hm]
        | cons h => exact absurd (localItem_lt h) (by simp)
    | cons t ts =>
      simp only [localLoop]
      constructor
      · intro h
        split at h
        next kv r he =>
          have hi := (localEntry_iff _ _ _ _).1 he
          have := localItem_lt hi
          simp only [List.length_cons] at this hn
          split at h
          next => cases h
          next hh =>
            have hh : has m0 kv.1 = false := by simpa using hh
            obtain ⟨l, hl, hm, hnd, hfr⟩ := (ih r (m0 ++ [kv]) m (by omega)).1 h
            refine ⟨kv :: l, .cons hi hl, by simp [hm], ?_, ?_⟩
            · simp only [List.map_cons, List.nodup_cons]
              refine ⟨?_, hnd⟩
              intro hmem
              obtain ⟨x, hx1, hx2⟩ := List.mem_map.1 hmem
              have := ((has_append _ _ _).1 (hfr x hx1)).2
              rw [hx2] at this
              have h2 := (has_iff [kv] kv.1).2 (by simp)
              rw [this] at h2; cases h2
            · intro x hx
              rcases List.mem_cons.1 hx with ex | hx'
              · subst ex; exact hh
              · exact ((has_append _ _ _).1 (hfr x hx')).1
        next => cases h
      · rintro ⟨l, hl, hm, hnd, hfr⟩
        cases hl with
        | cons hi hl =>
          rename_i x r xs
          rw [(localEntry_iff _ _ _ _).2 hi]
          have := localItem_lt hi
          simp only [List.length_cons] at this hn
          simp only [List.map_cons, List.nodup_cons] at hnd
          have hh := hfr x (by simp)
          simp only [hh, Bool.false_eq_true, if_false]
          exact (ih r (m0 ++ [x]) m (by omega)).2 ⟨xs, hl, by simp [hm], hnd.2, by
            intro y hy
            refine (has_append _ _ _).2 ⟨hfr y (by simp [hy]), ?_⟩
            cases hc : has [x] y.1 with
            | false => rfl
            | true =>
              have := (has_iff _ _).1 hc
              simp only [List.map_cons, List.map_nil, List.mem_singleton] at this
              exact absurd (List.mem_map.2 ⟨y, hy, this⟩) hnd.1⟩

theorem parseLocal_iff (syn : Syn) (ts : List Tok) (m : Map GLocal) (r : List Tok) :
    parseLocalResources syn ts = some (m, r) ↔ ∃ inner, ts = .bracket inner :: r ∧ LocalList syn inner m ∧ m ≠ [] ∧ (m.map Prod.fst).Nodup := by
  cases ts with
  | nil => simp [parseLocalResources]
  | cons t ts =>
    cases t with
    | bracket inner =>
      have key := localLoop_iff syn inner.length inner [] m (Nat.le_refl _)
      simp only [parseLocalResources, List.cons.injEq, Tok.bracket.injEq]
      constructor
      · intro h
        cases ht : localLoop syn inner.length [] inner with
        | none => rw [ht] at h; cases h
        | some m' =>
          rw [ht] at h
          simp only [Option.bind_eq_bind, Option.bind_some] at h
          split at h
          next => cases h
          next hne =>
            cases h
            obtain ⟨l, hl, hm, hnd, -⟩ := key.1 ht
            simp only [List.nil_append] at hm
            subst hm
            exact ⟨inner, ⟨rfl, rfl⟩, hl, by intro e; simp [e] at hne, hnd⟩
      · rintro ⟨inner', ⟨rfl, rfl⟩, hl, hne, hnd⟩
        rw [key.2 ⟨m, hl, by simp, hnd, by intro x _; simp [has, Verif.Analysis.get?]⟩]
        simp [hne]
    | _ => simp [parseLocalResources]

end Verif.Grammar
