import Verif.Analysis.Parse

/-! # The parsed application and the raw input agree -/

namespace Verif.Analysis

theorem parse_ok {raw : Raw} {app : App} (h : parse raw = .ok app) :
    ∃ s, PInv raw.items s ∧ s.init = some app.init ∧ s.idle = app.idle ∧ s.sharedRes = app.sharedRes ∧ s.localRes = app.localRes ∧ s.hw = app.hw ∧ s.sw = app.sw ∧
      app.dispatchers = raw.dispatchers ∧ app.dispatchers.Nodup := by
  unfold parse at h
  obtain ⟨ds, hds, h⟩ := bind_ok h
  obtain ⟨s, hs, h⟩ := bind_ok h
  have hi : PInv raw.items s := by
    have := foldlM_inv PInv (pre := []) (fun _ _ _ _ hi hs => pinv_step hi hs) pinv_nil hs
    simpa using this
  have hd : ds = raw.dispatchers ∧ ds.Nodup := by
    unfold parseDispatchers at hds
    obtain ⟨m, hm, hds⟩ := bind_ok hds
    cases hds
    have := foldlM_inv (fun l (b : Map Unit) => b.map Prod.fst = l ∧ (b.map Prod.fst).Nodup) (pre := []) (by
      rintro l a b b' ⟨h1, h2⟩ hb
      obtain ⟨h3, rfl⟩ := insertNew_ok hb
      refine ⟨by rw [List.map_append, h1]; rfl, ?_⟩
      rw [List.map_append, List.nodup_append]
      exact ⟨h2, by simp, by intro x hx y hy; simp at hy; subst hy; intro e; exact h3 (e ▸ hx)⟩) ⟨rfl, by simp⟩ hm
    simpa using this
  split at h
  · rename_i h1 h2 h3
    split at h
    · cases h
    · split at h
      · cases h
      · cases h
        exact ⟨s, hi, h3, rfl, rfl, rfl, rfl, rfl, hd.1, hd.2⟩
  · cases h

/-- usage of a shared resource, on the parsed application -/
def AppShared (app : App) (t : Ident) (p : Nat) (r : Ident) (a : Access) : Prop :=
  (∃ i, app.idle = some i ∧ t = i.name ∧ p = 0 ∧ (r, a) ∈ i.shared) ∨
  (∃ h, (t, h) ∈ app.hw ∧ p = h.priority ∧ (r, a) ∈ h.shared) ∨
  (∃ h, (t, h) ∈ app.sw ∧ p = h.priority ∧ (r, a) ∈ h.shared)

/-- usage of a local resource, on the parsed application -/
def AppLocal (app : App) (t : Ident) (p : Nat) (r : Ident) (k : TaskLocal) : Prop :=
  (∃ i, app.idle = some i ∧ t = i.name ∧ p = 0 ∧ (r, k) ∈ i.locals) ∨
  (∃ h, (t, h) ∈ app.hw ∧ p = h.priority ∧ (r, k) ∈ h.locals) ∨
  (∃ h, (t, h) ∈ app.sw ∧ p = h.priority ∧ (r, k) ∈ h.locals)

/-- What the rest of the proofs needs from the parser. -/
structure Says (raw : Raw) (app : App) : Prop where
  task : ∀ t k p args, TaskIs raw t k p args → ∃ sh lo, ArgsSay args sh lo ∧
    ((∃ i, app.idle = some i ∧ t = i.name ∧ p = 0 ∧ k = .idle ∧ i.shared = sh ∧ i.locals = lo) ∨
     (∃ h, (t, h) ∈ app.hw ∧ p = h.priority ∧ k = .hardware h.binds ∧ h.shared = sh ∧ h.locals = lo) ∨
     (∃ h, (t, h) ∈ app.sw ∧ p = h.priority ∧ k = .software ∧ h.shared = sh ∧ h.locals = lo))
  idle : ∀ i, app.idle = some i → ∃ args, TaskIs raw i.name .idle 0 args ∧ ArgsSay args i.shared i.locals
  hw : ∀ n t, (n, t) ∈ app.hw → ∃ args, TaskIs raw n (.hardware t.binds) t.priority args ∧ ArgsSay args t.shared t.locals
  sw : ∀ n t, (n, t) ∈ app.sw → ∃ args, TaskIs raw n .software t.priority args ∧ ArgsSay args t.shared t.locals
  localTask : ∀ n b ins, IsLocalTask raw n b ins ↔ ∃ t, (n, t) ∈ app.sw ∧ t.localTask = b ∧ t.inputs = ins
  initLocals : ∀ r k, (r, k) ∈ app.init.locals ↔ ∃ args ok s u l, .init app.init.name args ok s u ∈ raw.items ∧ .locals l ∈ args ∧ (r, k) ∈ l
  initOnly : ∀ n args ok s u, .init n args ok s u ∈ raw.items → n = app.init.name
  initDecl : ∀ r, (r, .external) ∉ app.init.locals
  sharedRes : ∀ r res, (r, res) ∈ app.sharedRes ↔ SharedField raw r res
  localRes : ∀ r ty, (r, ty) ∈ app.localRes ↔ LocalField raw r ty
  nodupS : (app.sharedRes.map Prod.fst).Nodup
  nodupL : (app.localRes.map Prod.fst).Nodup
  hwPrio : ∀ n t, (n, t) ∈ app.hw → 1 ≤ t.priority ∧ t.priority ≤ 255
  swPrio : ∀ n t, (n, t) ∈ app.sw → t.priority ≤ 255
  nodupHw : (app.hw.map Prod.fst).Nodup
  nodupSw : (app.sw.map Prod.fst).Nodup
  nodupB : (app.hw.map fun nt => nt.2.binds).Nodup
  dispatchers : app.dispatchers = raw.dispatchers
  nodupD : app.dispatchers.Nodup
  /-- no two functions (init, idle, tasks) have the same name -/
  idleHw : ∀ i t, app.idle = some i → (i.name, t) ∉ app.hw
  idleSw : ∀ i t, app.idle = some i → (i.name, t) ∉ app.sw
  hwSw : ∀ n t t', (n, t) ∈ app.hw → (n, t') ∉ app.sw
  initHw : ∀ t, (app.init.name, t) ∉ app.hw
  initSw : ∀ t, (app.init.name, t) ∉ app.sw
  initIdle : ∀ i, app.idle = some i → i.name ≠ app.init.name
  listsNodup : ∀ n t, (n, t) ∈ app.sw → (t.shared.map Prod.fst).Nodup ∧ (t.locals.map Prod.fst).Nodup
  listsNodupHw : ∀ n t, (n, t) ∈ app.hw → (t.shared.map Prod.fst).Nodup ∧ (t.locals.map Prod.fst).Nodup
  listsNodupIdle : ∀ i, app.idle = some i → (i.shared.map Prod.fst).Nodup ∧ (i.locals.map Prod.fst).Nodup
  initNodup : (app.init.locals.map Prod.fst).Nodup

/-- two items defining the same name are the same item -/
theorem same_item {items : List Item} (h : (items.filterMap fnName).Nodup) {a b : Item} {n : Ident} (ha : a ∈ items) (hb : b ∈ items)
    (hna : fnName a = some n) (hnb : fnName b = some n) : a = b := by
  induction items with
  | nil => cases ha
  | cons x l ih =>
    rw [List.filterMap_cons] at h
    rcases List.mem_cons.mp ha with rfl | ha'
    · rcases List.mem_cons.mp hb with rfl | hb'
      · rfl
      · rw [hna] at h
        simp only [List.nodup_cons] at h
        exact absurd (List.mem_filterMap.mpr ⟨b, hb', hnb⟩) h.1
    · rcases List.mem_cons.mp hb with rfl | hb'
      · rw [hnb] at h
        simp only [List.nodup_cons] at h
        exact absurd (List.mem_filterMap.mpr ⟨a, ha', hna⟩) h.1
      · refine ih ?_ ha' hb'
        split at h
        · exact h
        · exact (List.nodup_cons.mp h).2

theorem says_of_parse {raw : Raw} {app : App} (h : parse raw = .ok app) : Says raw app := by
  obtain ⟨s, hi, e1, e2, e3, e4, e5, e6, e7, e8⟩ := parse_ok h
  obtain ⟨h1, h2, h3, h4, h5, h6, h7, h8, h9, h10, h11, h12, h13, h14, h15, h16, h17⟩ := hi
  rw [e5] at h1 h14 h15 h17
  rw [e6] at h2 h16
  rw [e3] at h8 h10
  rw [e4] at h9 h11
  rw [e2] at h4
  have hinit := (h6 app.init).mp e1
  constructor <;> try assumption
  case task =>
    intro t k p args ht
    cases ht with
    | idle hm =>
      obtain ⟨⟨sh, lo⟩, hr⟩ := h5 _ _ _ hm
      refine ⟨sh, lo, idleArgs_ok hr, .inl ⟨⟨t, sh, lo⟩, ?_, rfl, rfl, rfl, rfl, rfl⟩⟩
      exact (h4 _).mpr ⟨_, _, hm, hr⟩
    | hardware hm hb hp =>
      obtain ⟨r, hr⟩ := h3 _ _ _ _ _ hm
      cases r with
      | inl t' =>
        obtain ⟨a1, a2, a3, a4, a5, a6⟩ := taskArgs_hw hr
        exact ⟨_, _, a6, .inr (.inl ⟨t', (h1 _ _).mpr ⟨_, _, _, _, hm, hr⟩, (a3 _).mp hp, by rw [a2 _ hb], rfl, rfl⟩)⟩
      | inr t' =>
        obtain ⟨a1, -⟩ := taskArgs_sw hr
        exact absurd hb (a1 _)
    | software hm hb hp =>
      obtain ⟨r, hr⟩ := h3 _ _ _ _ _ hm
      cases r with
      | inl t' =>
        obtain ⟨a1, -⟩ := taskArgs_hw hr
        exact absurd a1 (hb _)
      | inr t' =>
        obtain ⟨a1, a2, a3, a4, a5, a6⟩ := taskArgs_sw hr
        exact ⟨_, _, a4, .inr (.inr ⟨t', (h2 _ _).mpr ⟨_, _, _, _, hm, hr⟩, (a2 _).mp hp, rfl, rfl, rfl⟩)⟩
  case idle =>
    intro i he
    obtain ⟨args, ok, hm, hr⟩ := (h4 i).mp he
    exact ⟨args, .idle hm, idleArgs_ok hr⟩
  case hw =>
    intro n t hm
    obtain ⟨args, as, ins, ok, hm, hr⟩ := (h1 n t).mp hm
    obtain ⟨a1, a2, a3, a4, a5, a6⟩ := taskArgs_hw hr
    exact ⟨args, .hardware hm a1 ((a3 _).mpr rfl), a6⟩
  case sw =>
    intro n t hm
    obtain ⟨args, as, ins, ok, hm, hr⟩ := (h2 n t).mp hm
    obtain ⟨a1, a2, a3, a4, a5, a6⟩ := taskArgs_sw hr
    exact ⟨args, .software hm a1 ((a2 _).mpr rfl), a4⟩
  case localTask =>
    intro n b ins
    constructor
    · rintro ⟨args, as, ok, hm, hb, hl⟩
      obtain ⟨r, hr⟩ := h3 _ _ _ _ _ hm
      cases r with
      | inl t' =>
        obtain ⟨a1, -⟩ := taskArgs_hw hr
        exact absurd a1 (hb _)
      | inr t' =>
        obtain ⟨a1, a2, a3, a4, a5, a6⟩ := taskArgs_sw hr
        exact ⟨t', (h2 _ _).mpr ⟨_, _, _, _, hm, hr⟩, ((a6 b).mp hl).symm, a5⟩
    · rintro ⟨t, hm, rfl, rfl⟩
      obtain ⟨args, as, ins, ok, hm, hr⟩ := (h2 n t).mp hm
      obtain ⟨a1, a2, a3, a4, a5, a6⟩ := taskArgs_sw hr
      rw [a5]
      exact ⟨args, as, ok, hm, a1, (a6 _).mpr rfl⟩
  case initOnly =>
    intro n args ok a b hm
    obtain ⟨r, hr⟩ := h7 _ _ _ _ _ hm
    have := (h6 ⟨n, r, a, b⟩).mpr ⟨args, ok, hm, hr⟩
    rw [e1] at this
    rw [Option.some.inj this]
  case initLocals =>
    intro r k
    obtain ⟨args, ok, hm, hr⟩ := hinit
    obtain ⟨b1, b2, b3⟩ := initArgs_ok hr
    rw [b1]
    constructor
    · rintro ⟨l, hl, hk⟩; exact ⟨args, ok, _, _, l, hm, hl, hk⟩
    · rintro ⟨args', ok', a, b, l, hm', hl, hk⟩
      have := same_item h13 hm hm' rfl rfl
      cases this
      exact ⟨l, hl, hk⟩
  case initDecl => obtain ⟨args, ok, hm, hr⟩ := hinit; exact (initArgs_ok hr).2.1
  case initNodup => obtain ⟨args, ok, hm, hr⟩ := hinit; exact (initArgs_ok hr).2.2
  case sharedRes => intro r res; exact h8 (r, res)
  case localRes => intro r res; exact h9 (r, res)
  case hwPrio =>
    intro n t hm
    obtain ⟨args, as, ins, ok, hm, hr⟩ := (h1 n t).mp hm
    obtain ⟨a1, a2, a3, a4, a5, a6⟩ := taskArgs_hw hr
    exact ⟨a4, a5⟩
  case swPrio =>
    intro n t hm
    obtain ⟨args, as, ins, ok, hm, hr⟩ := (h2 n t).mp hm
    exact (taskArgs_sw hr).2.2.1
  case idleHw =>
    intro i t he hm
    obtain ⟨_, _, hm1, _⟩ := (h4 i).mp he
    obtain ⟨_, _, _, _, hm2, _⟩ := (h1 _ t).mp hm
    cases same_item h13 hm1 hm2 rfl rfl
  case idleSw =>
    intro i t he hm
    obtain ⟨_, _, hm1, _⟩ := (h4 i).mp he
    obtain ⟨_, _, _, _, hm2, _⟩ := (h2 _ t).mp hm
    cases same_item h13 hm1 hm2 rfl rfl
  case hwSw =>
    intro n t t' hm hm'
    obtain ⟨_, _, _, _, hm1, hr1⟩ := (h1 _ t).mp hm
    obtain ⟨_, _, _, _, hm2, hr2⟩ := (h2 _ t').mp hm'
    cases same_item h13 hm1 hm2 rfl rfl
    rw [hr1] at hr2; cases hr2
  case initHw =>
    intro t hm
    obtain ⟨_, _, hm1, _⟩ := hinit
    obtain ⟨_, _, _, _, hm2, _⟩ := (h1 _ t).mp hm
    cases same_item h13 hm1 hm2 rfl rfl
  case initSw =>
    intro t hm
    obtain ⟨_, _, hm1, _⟩ := hinit
    obtain ⟨_, _, _, _, hm2, _⟩ := (h2 _ t).mp hm
    cases same_item h13 hm1 hm2 rfl rfl
  case initIdle =>
    intro i he e
    obtain ⟨_, _, hm1, _⟩ := hinit
    obtain ⟨_, _, hm2, _⟩ := (h4 i).mp he
    cases same_item h13 hm1 hm2 rfl (by rw [← e]; rfl)
  case listsNodup =>
    intro n t hm
    obtain ⟨args, as, ins, ok, hm, hr⟩ := (h2 n t).mp hm
    obtain ⟨a1, a2, a3, a4, a5, a6⟩ := taskArgs_sw hr
    exact ⟨a4.nodupS, a4.nodupL⟩
  case listsNodupHw =>
    intro n t hm
    obtain ⟨args, as, ins, ok, hm, hr⟩ := (h1 n t).mp hm
    obtain ⟨a1, a2, a3, a4, a5, a6⟩ := taskArgs_hw hr
    exact ⟨a6.nodupS, a6.nodupL⟩
  case listsNodupIdle =>
    intro i he
    obtain ⟨args, ok, hm, hr⟩ := (h4 i).mp he
    exact ⟨(idleArgs_ok hr).nodupS, (idleArgs_ok hr).nodupL⟩

theorem Says.uses {raw : Raw} {app : App} (hs : Says raw app) {t : Ident} {p : Nat} {r : Ident} {a : Access} : UsesShared raw t p r a ↔ AppShared app t p r a := by
  constructor
  · rintro ⟨k, args, l, ht, hl, hm⟩
    obtain ⟨sh, lo, hsay, h⟩ := hs.task _ _ _ _ ht
    have hra := (hsay.shared (r, a)).mpr ⟨l, hl, hm⟩
    rcases h with ⟨i, h1, h2, h3, h4, h5, h6⟩ | ⟨i, h1, h2, h3, h5, h6⟩ | ⟨i, h1, h2, h3, h5, h6⟩
    · exact .inl ⟨i, h1, h2, h3, h5 ▸ hra⟩
    · exact .inr (.inl ⟨i, h1, h2, h5 ▸ hra⟩)
    · exact .inr (.inr ⟨i, h1, h2, h5 ▸ hra⟩)
  · rintro (⟨i, h1, rfl, rfl, h4⟩ | ⟨h, h1, rfl, h4⟩ | ⟨h, h1, rfl, h4⟩)
    · obtain ⟨args, ht, hsay⟩ := hs.idle i h1
      obtain ⟨l, hl, hm⟩ := (hsay.shared _).mp h4
      exact ⟨_, _, l, ht, hl, hm⟩
    · obtain ⟨args, ht, hsay⟩ := hs.hw _ _ h1
      obtain ⟨l, hl, hm⟩ := (hsay.shared _).mp h4
      exact ⟨_, _, l, ht, hl, hm⟩
    · obtain ⟨args, ht, hsay⟩ := hs.sw _ _ h1
      obtain ⟨l, hl, hm⟩ := (hsay.shared _).mp h4
      exact ⟨_, _, l, ht, hl, hm⟩

theorem Says.usesLocal {raw : Raw} {app : App} (hs : Says raw app) {t : Ident} {p : Nat} {r : Ident} {a : TaskLocal} :
    (∃ k args l, TaskIs raw t k p args ∧ .locals l ∈ args ∧ (r, a) ∈ l) ↔ AppLocal app t p r a := by
  constructor
  · rintro ⟨k, args, l, ht, hl, hm⟩
    obtain ⟨sh, lo, hsay, h⟩ := hs.task _ _ _ _ ht
    have hra := (hsay.locals (r, a)).mpr ⟨l, hl, hm⟩
    rcases h with ⟨i, h1, h2, h3, h4, h5, h6⟩ | ⟨i, h1, h2, h3, h5, h6⟩ | ⟨i, h1, h2, h3, h5, h6⟩
    · exact .inl ⟨i, h1, h2, h3, h6 ▸ hra⟩
    · exact .inr (.inl ⟨i, h1, h2, h6 ▸ hra⟩)
    · exact .inr (.inr ⟨i, h1, h2, h6 ▸ hra⟩)
  · rintro (⟨i, h1, rfl, rfl, h4⟩ | ⟨h, h1, rfl, h4⟩ | ⟨h, h1, rfl, h4⟩)
    · obtain ⟨args, ht, hsay⟩ := hs.idle i h1
      obtain ⟨l, hl, hm⟩ := (hsay.locals _).mp h4
      exact ⟨_, _, l, ht, hl, hm⟩
    · obtain ⟨args, ht, hsay⟩ := hs.hw _ _ h1
      obtain ⟨l, hl, hm⟩ := (hsay.locals _).mp h4
      exact ⟨_, _, l, ht, hl, hm⟩
    · obtain ⟨args, ht, hsay⟩ := hs.sw _ _ h1
      obtain ⟨l, hl, hm⟩ := (hsay.locals _).mp h4
      exact ⟨_, _, l, ht, hl, hm⟩

theorem mem_sharedAccesses {app : App} {p : Nat} {r : Ident} {a : Access} : (p, r, a) ∈ sharedAccesses app ↔ ∃ t, AppShared app t p r a := by
  unfold sharedAccesses AppShared
  simp only [List.mem_append, List.mem_flatMap, List.mem_map, Option.mem_toList, Prod.mk.injEq]
  constructor
  · rintro ((⟨i, hi, ra, hra, rfl, rfl, rfl⟩ | ⟨nt, hi, ra, hra, rfl, rfl, rfl⟩) | ⟨nt, hi, ra, hra, rfl, rfl, rfl⟩)
    · exact ⟨_, .inl ⟨i, hi, rfl, rfl, hra⟩⟩
    · exact ⟨nt.1, .inr (.inl ⟨nt.2, hi, rfl, hra⟩)⟩
    · exact ⟨nt.1, .inr (.inr ⟨nt.2, hi, rfl, hra⟩)⟩
  · rintro ⟨t, ⟨i, hi, rfl, rfl, h⟩ | ⟨h', hi, rfl, h⟩ | ⟨h', hi, rfl, h⟩⟩
    · exact .inl (.inl ⟨i, hi, _, h, rfl, rfl, rfl⟩)
    · exact .inl (.inr ⟨_, hi, _, h, rfl, rfl, rfl⟩)
    · exact .inr ⟨_, hi, _, h, rfl, rfl, rfl⟩

end Verif.Analysis
