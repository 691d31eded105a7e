import Verif.Grammar.Sem

/-!
# The arguments of `#[app]`
-/

namespace Verif.Grammar
open Verif.Analysis (Ident Access Map has)
open Verif.Signature (Attr Path Seg)

def dispNamed : Expr → Option (Ident × List Attr)
  | .path attrs p =>
    if p.leadingColon then none
    else match p.segs with
      | [s] => some (s.ident, attrs)
      | _ => none
  | _ => none

theorem dispatcherStep_eq : dispatcherStep = stepOf dispNamed := by
  funext m e
  cases e with
  | path attrs p =>
    obtain ⟨lc, segs⟩ := p
    cases lc with
    | true => rfl
    | false =>
      match segs with
      | [] => rfl
      | [s] => rfl
      | _ :: _ :: _ => rfl
  | reference => rfl
  | other => rfl

theorem dispatcherItem_iff (syn : Syn) (ts : List Tok) (x : Ident × List Attr) (r : List Tok) :
    (∃ e, syn.expr ts = some (e, r) ∧ dispNamed e = some x) ↔ DispatcherItem syn ts x r := by
  constructor
  · rintro ⟨e, he, hn⟩
    cases e with
    | path attrs p =>
      obtain ⟨lc, segs⟩ := p
      cases lc with
      | true => simp [dispNamed] at hn
      | false =>
        match segs with
        | [] => simp [dispNamed] at hn
        | [⟨i, a⟩] =>
          simp [dispNamed] at hn
          subst hn
          exact .mk he
        | _ :: _ :: _ => simp [dispNamed] at hn
    | reference => simp [dispNamed] at hn
    | other => simp [dispNamed] at hn
  · rintro ⟨h⟩
    exact ⟨_, h, rfl⟩

theorem dispatchers_iff (syn : Syn) (inner : List Tok) (m0 m : Map (List Attr)) :
    (terminated syn inner.length inner).bind (·.foldlM dispatcherStep m0) = some m ↔
      ∃ l, CommaList (DispatcherItem syn) inner l ∧ m = m0 ++ l ∧ (l.map Prod.fst).Nodup ∧ ∀ x ∈ l, has m0 x.1 = false := by
  have key := terminated_iff syn dispNamed inner.length inner m0 m (Nat.le_refl _)
  rw [← dispatcherStep_eq] at key
  have cg : ∀ l, CommaList (fun ts x r => ∃ e, syn.expr ts = some (e, r) ∧ dispNamed e = some x) inner l ↔ CommaList (DispatcherItem syn) inner l :=
    fun l => CommaList.congr (dispatcherItem_iff syn)
  simp only [cg] at key
  rw [← key]
  cases terminated syn inner.length inner <;> simp

def keyOf : AKind → Ident
  | .device => Kw.device
  | .core => Kw.core
  | .peripherals => Kw.peripherals
  | .dispatchers => Kw.dispatchers
  | .backend => Kw.backend

theorem keyOf_inj {k k' : AKind} (h : keyOf k = keyOf k') : k = k' := by cases k <;> cases k' <;> first | rfl | exact absurd h (by decide)

def setA (s : AppSt) (a : AArg) : AppSt :=
  let s := { s with custom := keyOf a.kind :: s.custom }
  match a with
  | .device p => { s with device := some p }
  | .core b => { s with core := b }
  | .peripherals b => { s with peripherals := b }
  | .dispatchers l => { s with dispatchers := s.dispatchers ++ l }
  | .backend i => { s with backend := some i }

def freeA (s : AppSt) (k : AKind) : Prop := keyOf k ∉ s.custom

instance (s : AppSt) (k : AKind) : Decidable (freeA s k) := inferInstanceAs (Decidable (_ ∉ _))

def goodIn (s : AppSt) : AArg → Prop
  | .dispatchers l => (l.map Prod.fst).Nodup ∧ ∀ x ∈ l, has s.dispatchers x.1 = false
  | _ => True

instance (s : AppSt) (a : AArg) : Decidable (goodIn s a) := by
  cases a <;> simp only [goodIn] <;> infer_instance

def goodA : AArg → Prop
  | .dispatchers l => (l.map Prod.fst).Nodup
  | _ => True

def invA (s : AppSt) : Prop := Kw.dispatchers ∉ s.custom → s.dispatchers = []

def semA (s : AppSt) (a : AArg) : Option AppSt := if freeA s a.kind ∧ goodIn s a then some (setA s a) else none

theorem semA_some (s : AppSt) (a : AArg) (s' : AppSt) : semA s a = some s' ↔ freeA s a.kind ∧ goodIn s a ∧ s' = setA s a := by
  simp only [semA]
  split <;> grind

theorem semA_iff (s : AppSt) (a : AArg) (s' : AppSt) (h : invA s) : semA s a = some s' ↔ freeA s a.kind ∧ goodA a ∧ s' = setA s a := by
  rw [semA_some]
  constructor
  · rintro ⟨h1, h2, h3⟩
    refine ⟨h1, ?_, h3⟩
    cases a <;> first | trivial | exact h2.1
  · rintro ⟨h1, h2, h3⟩
    refine ⟨h1, ?_, h3⟩
    cases a with
    | dispatchers l =>
      refine ⟨h2, ?_⟩
      rw [h h1]
      intro x _
      simp [has, Verif.Analysis.get?]
    | _ => trivial

theorem freeA_set (s : AppSt) (a : AArg) (k : AKind) : freeA (setA s a) k ↔ freeA s k ∧ k ≠ a.kind := by
  have : (setA s a).custom = keyOf a.kind :: s.custom := by cases a <;> rfl
  simp only [freeA, this, List.mem_cons, not_or]
  constructor
  · rintro ⟨h1, h2⟩; exact ⟨h2, fun e => h1 (by rw [e])⟩
  · rintro ⟨h1, h2⟩; exact ⟨fun e => h2 (keyOf_inj e), h1⟩

theorem invA_set (s : AppSt) (a : AArg) (h : invA s) : invA (setA s a) := by
  intro hc
  have : (setA s a).custom = keyOf a.kind :: s.custom := by cases a <;> rfl
  rw [this] at hc
  simp only [List.mem_cons, not_or] at hc
  cases a with
  | dispatchers l => exact absurd rfl hc.1
  | _ => exact h hc.2

theorem appItem_lt {syn : Syn} {clint ts a r} (h : AppItem syn clint ts a r) : r.length < ts.length := by
  cases h with
  | device h => have := syn.path_lt h; simp only [List.length_cons]; omega
  | _ => simp only [List.length_cons]; omega

theorem appArg_iff (syn : Syn) (clint : Bool) (s : AppSt) (ts : List Tok) (s' : AppSt) (r : List Tok) :
    appArg syn clint s ts = some (s', r) ↔ ∃ a, AppItem syn clint ts a r ∧ semA s a = some s' := by
  constructor
  · intro h
    match ts with
    | .ident k :: .eq :: ts =>
      simp only [appArg] at h
      split at h
      next => cases h
      next hfree =>
        split at h
        next hk =>
          subst hk
          split at h
          next p r' hp => cases h; exact ⟨.device p, .device hp, (semA_some _ _ _).2 ⟨hfree, trivial, rfl⟩⟩
          next => cases h
        next =>
          split at h
          next hk =>
            subst hk
            split at h
            next b r' => cases h; exact ⟨.core b, .core, (semA_some _ _ _).2 ⟨hfree, trivial, rfl⟩⟩
            next => cases h
          next =>
            split at h
            next hk =>
              subst hk
              split at h
              next b r' => cases h; exact ⟨.peripherals b, .peripherals, (semA_some _ _ _).2 ⟨hfree, trivial, rfl⟩⟩
              next => cases h
            next =>
              split at h
              next hk =>
                subst hk
                split at h
                next inner r' =>
                  split at h
                  next m hm =>
                    cases h
                    obtain ⟨l, hl, rfl, hn, hh⟩ := (dispatchers_iff _ _ _ _).1 hm
                    exact ⟨.dispatchers l, .dispatchers hl, (semA_some _ _ _).2 ⟨hfree, ⟨hn, hh⟩, rfl⟩⟩
                  next => cases h
                next => cases h
              next =>
                split at h
                next hk =>
                  subst hk
                  split at h
                  next i r' hb =>
                    cases h
                    match ts with
                    | .ident j :: ts =>
                      simp only [backendArgs] at hb
                      split at hb
                      next hc => cases hb; exact ⟨.backend i, .backend hc, (semA_some _ _ _).2 ⟨hfree, trivial, rfl⟩⟩
                      next => cases hb
                    | [] | .eq :: _ | .comma :: _ | .colon :: _ | .amp :: _ | .bool _ :: _ | .bracket _ :: _ | .attr _ :: _ | .other _ :: _ | .int _ _ :: _ => cases hb
                  next => cases h
                next => cases h
    | [.ident _] | .ident _ :: .ident _ :: _ | .ident _ :: .comma :: _ | .ident _ :: .colon :: _ | .ident _ :: .amp :: _ | .ident _ :: .bool _ :: _ | .ident _ :: .bracket _ :: _ | .ident _ :: .attr _ :: _ | .ident _ :: .other _ :: _ | .ident _ :: .int _ _ :: _ => cases h
    | [] | .eq :: _ | .comma :: _ | .colon :: _ | .amp :: _ | .bool _ :: _ | .bracket _ :: _ | .attr _ :: _ | .other _ :: _ | .int _ _ :: _ => cases h
  · rintro ⟨a, h, hs⟩
    obtain ⟨hf, hg, rfl⟩ := (semA_some _ _ _).1 hs
    cases h with
    | device h =>
      have hf : Kw.device ∉ s.custom := hf
      simp only [appArg, if_neg hf, if_true, h]; rfl
    | core =>
      have hf : Kw.core ∉ s.custom := hf
      simp only [appArg, if_neg hf, if_neg (show Kw.core ≠ Kw.device by decide), if_true]; rfl
    | peripherals =>
      have hf : Kw.peripherals ∉ s.custom := hf
      simp only [appArg, if_neg hf, if_neg (show Kw.peripherals ≠ Kw.device by decide), if_neg (show Kw.peripherals ≠ Kw.core by decide), if_true]; rfl
    | dispatchers h =>
      have hf : Kw.dispatchers ∉ s.custom := hf
      simp only [appArg, if_neg hf, if_neg (show Kw.dispatchers ≠ Kw.device by decide), if_neg (show Kw.dispatchers ≠ Kw.core by decide), if_neg (show Kw.dispatchers ≠ Kw.peripherals by decide), if_true]
      rw [(dispatchers_iff _ _ _ _).2 ⟨_, h, rfl, hg.1, hg.2⟩]
      rfl
    | backend h =>
      have hf : Kw.backend ∉ s.custom := hf
      simp only [appArg, if_neg hf, if_neg (show Kw.backend ≠ Kw.device by decide), if_neg (show Kw.backend ≠ Kw.core by decide), if_neg (show Kw.backend ≠ Kw.peripherals by decide), if_neg (show Kw.backend ≠ Kw.dispatchers by decide), if_true, backendArgs, h]
      rfl

theorem appFold_iff (as : List AArg) (s' : AppSt) : as.foldlM semA {} = some s' ↔ (as.map AArg.kind).Nodup ∧ (∀ l, .dispatchers l ∈ as → (l.map Prod.fst).Nodup) ∧ s' = as.foldl setA {} := by
  rw [fold_iff invA semA setA freeA AArg.kind goodA semA_iff freeA_set invA_set as {} s' (fun _ => rfl)]
  have : ∀ k, freeA {} k := by intro k; simp [freeA]
  constructor
  · rintro ⟨h1, h2, h3⟩; exact ⟨h1, fun l hl => (h2 _ hl).2, h3⟩
  · rintro ⟨h1, h2, h3⟩
    refine ⟨h1, fun a ha => ⟨this _, ?_⟩, h3⟩
    cases a with
    | dispatchers l => exact h2 l ha
    | _ => trivial

/-- a slot after all arguments: the value given, or what was there at the beginning -/
theorem slotA {β γ : Type} (c : β → AArg) (π : AppSt → γ) (v : β → γ) (k : AKind) (hc : ∀ x, (c x).kind = k) (hinv : ∀ a, a.kind = k → ∃ x, a = c x)
    (hset : ∀ s x, π s = π {} → π (setA s (c x)) = v x) (ho : ∀ a, a.kind ≠ k → ∀ s, π (setA s a) = π s) (as : List AArg) (hn : (as.map AArg.kind).Nodup) :
    (∀ x, c x ∈ as → π (as.foldl setA {}) = v x) ∧ ((∀ x, c x ∉ as) → π (as.foldl setA {}) = π {}) := by
  constructor
  · intro x hx
    suffices ∀ (as : List AArg) s, π s = π {} → (as.map AArg.kind).Nodup → c x ∈ as → π (as.foldl setA s) = v x from this as {} rfl hn hx
    intro as
    induction as with
    | nil => intro s _ _ h; cases h
    | cons b as ih =>
      intro s h0 hn hx
      simp only [List.map_cons, List.nodup_cons] at hn
      rw [List.foldl_cons]
      rcases List.mem_cons.1 hx with e | hx'
      · subst e
        rw [slot_default setA AArg.kind π k ho as _ (by intro y hy e; exact hn.1 (List.mem_map.2 ⟨y, hy, by rw [e, hc]⟩))]
        exact hset s x h0
      · refine ih _ ?_ hn.2 hx'
        rw [ho b ?_, h0]
        intro e
        exact hn.1 (List.mem_map.2 ⟨c x, hx', by rw [e, hc]⟩)
  · intro h
    refine slot_default setA AArg.kind π k ho as {} ?_
    intro a ha e
    obtain ⟨x, rfl⟩ := hinv a e
    exact h x ha

def finishA (s : AppSt) : Option AppArgs :=
  match s.device with
  | some d => some { device := d, core := s.core, peripherals := s.peripherals, dispatchers := s.dispatchers, backend := s.backend }
  | none => none

theorem appArgs_eq (syn : Syn) (clint : Bool) (ts : List Tok) : appArgs syn clint ts = (commaLoop (appArg syn clint) ts.length {} ts).bind finishA := by
  simp only [appArgs]
  cases commaLoop (appArg syn clint) ts.length {} ts with
  | none => rfl
  | some s =>
    simp only [Option.bind_eq_bind, Option.bind_some, finishA]
    cases s.device <;> rfl

theorem finishA_iff (as : List AArg) (hn : (as.map AArg.kind).Nodup) (hd : ∀ l, .dispatchers l ∈ as → (l.map Prod.fst).Nodup) (a : AppArgs) :
    finishA (as.foldl setA {}) = some a ↔ AppMeans as a := by
  have h1 := slotA .device AppSt.device some .device (fun _ => rfl) (fun a h => by cases a <;> simp_all [AArg.kind]) (fun _ _ _ => rfl) (fun a h _ => by cases a <;> simp_all [AArg.kind, setA]) as hn
  have h2 := slotA .core AppSt.core id .core (fun _ => rfl) (fun a h => by cases a <;> simp_all [AArg.kind]) (fun _ _ _ => rfl) (fun a h _ => by cases a <;> simp_all [AArg.kind, setA]) as hn
  have h3 := slotA .peripherals AppSt.peripherals id .peripherals (fun _ => rfl) (fun a h => by cases a <;> simp_all [AArg.kind]) (fun _ _ _ => rfl) (fun a h _ => by cases a <;> simp_all [AArg.kind, setA]) as hn
  have h4 := slotA .dispatchers AppSt.dispatchers id .dispatchers (fun _ => rfl) (fun a h => by cases a <;> simp_all [AArg.kind]) (fun s x h => by simp [setA, h]) (fun a h _ => by cases a <;> simp_all [AArg.kind, setA]) as hn
  have h5 := slotA .backend AppSt.backend some .backend (fun _ => rfl) (fun a h => by cases a <;> simp_all [AArg.kind]) (fun _ _ _ => rfl) (fun a h _ => by cases a <;> simp_all [AArg.kind, setA]) as hn
  generalize as.foldl setA {} = s at h1 h2 h3 h4 h5
  have byCases : ∀ {β : Type} (c : β → AArg), (∃ x, c x ∈ as) ∨ ∀ x, c x ∉ as := by
    intro β c
    by_cases h : ∃ x, c x ∈ as
    · exact .inl h
    · exact .inr fun x hx => h ⟨x, hx⟩
  obtain ⟨da, cb, pb, dl, bi⟩ := a
  simp only [finishA]
  constructor
  · intro h
    have hdev : ∃ d, s.device = some d ∧ d = da ∧ s.core = cb ∧ s.peripherals = pb ∧ s.dispatchers = dl ∧ s.backend = bi := by
      cases hs : s.device with
      | none => rw [hs] at h; cases h
      | some d => rw [hs] at h; cases h; exact ⟨_, rfl, rfl, rfl, rfl, rfl, rfl⟩
    obtain ⟨d', hs, hd', rfl, rfl, rfl, rfl⟩ := hdev
    subst hd'
    refine ⟨hn, ?_, ?_, ?_, ?_, ?_, ?_⟩
    · rcases byCases .device with ⟨x, hx⟩ | hx
      · have := h1.1 x hx; rw [hs] at this; cases this; exact hx
      · have := h1.2 hx; rw [hs] at this; cases this
    · rcases byCases .core with ⟨x, hx⟩ | hx
      · have := h2.1 x hx; simp only [id] at this; rw [this]; exact .inl hx
      · exact .inr ⟨hx, h2.2 hx⟩
    · rcases byCases .peripherals with ⟨x, hx⟩ | hx
      · have := h3.1 x hx; simp only [id] at this; rw [this]; exact .inl hx
      · exact .inr ⟨hx, h3.2 hx⟩
    · rcases byCases .dispatchers with ⟨x, hx⟩ | hx
      · have := h4.1 x hx; simp only [id] at this; rw [this]; exact .inl hx
      · exact .inr ⟨hx, h4.2 hx⟩
    · rcases byCases .dispatchers with ⟨x, hx⟩ | hx
      · have := h4.1 x hx; simp only [id] at this; rw [this]; exact hd x hx
      · have := h4.2 hx; simp only at this ⊢; rw [this]; simp
    · rcases byCases .backend with ⟨x, hx⟩ | hx
      · exact .inl ⟨x, h5.1 x hx, hx⟩
      · exact .inr ⟨hx, h5.2 hx⟩
  · rintro ⟨-, m1, m2, m3, m4, -, m5⟩
    simp only at m1 m2 m3 m4 m5
    rw [h1.1 _ m1]
    have e2 : s.core = cb := by rcases m2 with h | ⟨h, rfl⟩ <;> first | exact h2.1 _ h | exact h2.2 h
    have e3 : s.peripherals = pb := by rcases m3 with h | ⟨h, rfl⟩ <;> first | exact h3.1 _ h | exact h3.2 h
    have e4 : s.dispatchers = dl := by rcases m4 with h | ⟨h, rfl⟩ <;> first | exact h4.1 _ h | exact h4.2 h
    have e5 : s.backend = bi := by rcases m5 with ⟨i, rfl, h⟩ | ⟨h, rfl⟩ <;> first | exact h5.1 _ h | exact h5.2 h
    simp only [e2, e3, e4, e5]

end Verif.Grammar
