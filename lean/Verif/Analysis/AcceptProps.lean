import Verif.Analysis.Accept

/-! # C84: an application is accepted exactly if it follows the rules -/

namespace Verif.Analysis

variable {raw : Raw} {app : App}

/-! ## the checks common to all targets -/

theorem check_of (h1 : ∀ x ∈ sharedAccesses app, has app.sharedRes x.2.1 = true) (h2 : ∀ r ∈ localAccesses app, has app.localRes r = true)
    (h3 : ∀ x ∈ sharedAccesses app, ∀ y ∈ sharedAccesses app, x.2.1 = y.2.1 → x.2.2 = y.2.2) (h4 : ∀ nt ∈ app.hw, nt.2.binds ∉ app.dispatchers) : check app = .ok () := by
  unfold check
  rw [bind_eq (a := ()) (forM_ok.mpr fun a ha => by rw [if_pos (h1 a ha)])]
  rw [bind_eq (a := ()) (forM_ok.mpr fun a ha => by rw [if_pos (h2 a ha)])]
  rw [bind_eq (a := ()) (forM_ok.mpr fun a ha => ?_)]
  · exact forM_ok.mpr fun a ha => by rw [if_neg (h4 a ha)]
  · rw [if_neg]
    rintro ⟨hs, he⟩
    obtain ⟨y, hy, hye⟩ := List.mem_filterMap.mp he
    split at hye
    · rename_i hex
      have hye := Option.some.inj hye
      have := h3 a ha y hy hye.symm
      rw [hs, hex] at this; cases this
    · cases hye

theorem usesValid_of (hs : Says raw app) (hc : check app = .ok ()) (he : analyzeErrors app = []) : UsesValid raw := by
  obtain ⟨c1, c2, c3, c4⟩ := check_ok hc
  have hno : ∀ e, e ∉ analyzeErrors app := by rw [he]; simp
  have hnb : ∀ r, r ∉ (lrCheck app).bad := fun r hb => hno (.localShared r) (mem_analyzeErrors.mpr (.inr (.inr (.inr (.inl ⟨r, rfl, hb⟩)))))
  constructor
  · intro t q r a hu
    obtain ⟨res, hres⟩ := has_iff.mp (c1 _ (mem_sharedAccesses.mpr ⟨t, hs.uses.mp hu⟩))
    exact ⟨res, (hs.sharedRes _ _).mp hres⟩
  · intro t q r hu
    obtain ⟨ty, hty⟩ := has_iff.mp (c2 _ (mem_localAccesses.mpr (.inr ⟨t, q, hs.usesLocal.mp hu⟩)))
    exact ⟨ty, (hs.localRes _ _).mp hty⟩
  · intro t q r a t' q' a' hu hu'
    exact c3 _ (mem_sharedAccesses.mpr ⟨t, hs.uses.mp hu⟩) _ (mem_sharedAccesses.mpr ⟨t', hs.uses.mp hu'⟩) rfl
  · intro r res hr hlf
    have hmem := (hs.sharedRes r res).mpr hr
    constructor
    · intro t q a t' q' a' hu hu'
      apply Classical.byContradiction
      intro hne
      exact hno (.lockFreePrio r) (mem_analyzeErrors.mpr (.inr (.inr (.inl ⟨r, rfl, mem_bad.mpr ⟨⟨res, hmem, hlf⟩, t, q, a, t', q', a', hs.uses.mp hu, hs.uses.mp hu', hne⟩⟩))))
    · intro t q a args ht hu
      obtain ⟨st, hst, -⟩ := sw_of_task hs ht
      exact hno (.lockFreeAsync r) (mem_analyzeErrors.mpr (.inl ⟨r, t, q, a, rfl, ⟨res, hmem, hlf⟩, hs.uses.mp hu, has_iff.mpr ⟨st, hst⟩⟩))
  · intro r ty t q t' q' hr hu hu'
    have hmem := (hs.localRes r ty).mpr hr
    exact ((lr_inv app).good r (hnb r)).1 t t' (mem_lrUses.mpr ⟨⟨ty, hmem⟩, .inr ⟨q, hs.usesLocal.mp hu⟩⟩) (mem_lrUses.mpr ⟨⟨ty, hmem⟩, .inr ⟨q', hs.usesLocal.mp hu'⟩⟩)
  · rintro r ty t hr ⟨args, l, ty', ht | ⟨ok, s, u, ht⟩, hl, hm⟩
    · have hmem := (hs.localRes r ty).mpr hr
      obtain ⟨k, q, ht⟩ := ht
      exact ((lr_inv app).good r (hnb r)).2 t ty' (mem_lrUses.mpr ⟨⟨ty, hmem⟩, .inr ⟨q, hs.usesLocal.mp ⟨k, args, l, ht, hl, hm⟩⟩⟩)
    · have hmem := (hs.localRes r ty).mpr hr
      have e := hs.initOnly _ _ _ _ _ ht
      subst e
      exact ((lr_inv app).good r (hnb r)).2 _ ty' (mem_lrUses.mpr ⟨⟨ty, hmem⟩, .inl ⟨rfl, (hs.initLocals _ _).mpr ⟨args, ok, s, u, l, ht, hl, hm⟩⟩⟩)
  · intro t args t' q' args' ht hi
    obtain ⟨st, hst, hq⟩ := sw_of_task hs ht
    obtain ⟨sh, lo, -, hk⟩ := hs.task _ _ _ _ hi
    rcases hk with ⟨i, h1, h2, h3, h4, h5, h6⟩ | ⟨i, h1, h2, h3, h5, h6⟩ | ⟨i, h1, h2, h3, h5, h6⟩
    · exact hno (.prioZeroIdle t) (mem_analyzeErrors.mpr (.inr (.inr (.inr (.inr ⟨t, rfl, by rw [h1]; rfl, st, hst, hq.symm⟩)))))
    · cases h3
    · cases h3
  · intro t v q args ht
    obtain ⟨x, hx, hv, -⟩ := hw_of_task hs ht
    rw [← hs.dispatchers, ← hv]
    exact c4 _ hx

theorem check_of_usesValid (hs : Says raw app) (hv : UsesValid raw) : check app = .ok () ∧ analyzeErrors app = [] := by
  constructor
  · apply check_of
    · rintro ⟨q, r, a⟩ hx
      obtain ⟨t, ht⟩ := mem_sharedAccesses.mp hx
      obtain ⟨res, hr⟩ := hv.shared _ _ _ _ (hs.uses.mpr ht)
      exact has_iff.mpr ⟨res, (hs.sharedRes _ _).mpr hr⟩
    · intro r hx
      rcases mem_localAccesses.mp hx with h | ⟨t, q, h⟩
      · exact absurd h (hs.initDecl r)
      · obtain ⟨ty, hr⟩ := hv.locals t q r (hs.usesLocal.mpr h)
        exact has_iff.mpr ⟨ty, (hs.localRes _ _).mpr hr⟩
    · rintro ⟨q, r, a⟩ hx ⟨q', r', a'⟩ hy he
      obtain ⟨t, ht⟩ := mem_sharedAccesses.mp hx
      obtain ⟨t', ht'⟩ := mem_sharedAccesses.mp hy
      simp only at he; subst he
      exact hv.access _ _ _ _ _ _ _ (hs.uses.mpr ht) (hs.uses.mpr ht')
    · rintro ⟨n, t⟩ hm
      obtain ⟨args, ht, -⟩ := hs.hw n t hm
      rw [hs.dispatchers]
      exact hv.separate _ _ _ _ ht
  · rw [List.eq_nil_iff_forall_not_mem]
    intro e he
    rcases mem_analyzeErrors.mp he with ⟨r, t, p, a, -, ⟨res, h1, h2⟩, h3, h4⟩ | ⟨r, -, hb⟩ | ⟨r, -, hb⟩ | ⟨r, -, hb⟩ | ⟨t, -, hid, st, hst, h0⟩
    · obtain ⟨st, hst⟩ := has_iff.mp h4
      obtain ⟨args, hargs, -⟩ := hs.sw _ _ hst
      have hp : p = st.priority := by
        rcases h3 with ⟨i, a1, rfl, -⟩ | ⟨h', a1, -⟩ | ⟨h', a1, rfl, -⟩
        · exact absurd hst (hs.idleSw i st a1)
        · exact absurd hst (hs.hwSw _ _ _ a1)
        · have e1 := get?_of_mem hs.nodupSw a1
          have e2 := get?_of_mem hs.nodupSw hst
          rw [e1] at e2; cases e2; rfl
      subst hp
      exact (hv.lockFree r res ((hs.sharedRes _ _).mp h1) h2).2 _ _ _ _ hargs (hs.uses.mpr h3)
    · obtain ⟨⟨res, h1, h2⟩, t, q, a, t', q', a', h3, h4, h5⟩ := mem_bad.mp hb
      exact h5 ((hv.lockFree r res ((hs.sharedRes _ _).mp h1) h2).1 _ _ _ _ _ _ (hs.uses.mpr h3) (hs.uses.mpr h4))
    · obtain ⟨⟨res, h1, h2⟩, t, q, a, t', q', a', h3, h4, h5⟩ := mem_bad.mp hb
      exact h5 ((hv.lockFree r res ((hs.sharedRes _ _).mp h1) h2).1 _ _ _ _ _ _ (hs.uses.mpr h3) (hs.uses.mpr h4))
    · rcases (lr_inv app).bad (lrUses_nodup hs) r hb with ⟨t, ty, hd⟩ | ⟨t, t', hne, h1, h2⟩
      · obtain ⟨⟨ty', hty⟩, hd⟩ := mem_lrUses.mp hd
        refine hv.localNew r ty' t ((hs.localRes _ _).mp hty) ?_
        rcases hd with ⟨rfl, hi⟩ | ⟨q, hq⟩
        · obtain ⟨args, ok, s, u, l, h1, h2, h3⟩ := (hs.initLocals _ _).mp hi
          exact ⟨args, l, ty, .inr ⟨ok, s, u, h1⟩, h2, h3⟩
        · obtain ⟨k, args, l, h1, h2, h3⟩ := hs.usesLocal.mpr hq
          exact ⟨args, l, ty, .inl ⟨k, q, h1⟩, h2, h3⟩
      · have key : ∀ t, (r, t, r, TaskLocal.external) ∈ lrUses app → ∃ q, UsesLocal raw t q r := by
          intro t hm
          rcases (mem_lrUses.mp hm).2 with ⟨rfl, hi⟩ | ⟨q, hq⟩
          · exact absurd hi (hs.initDecl r)
          · exact ⟨q, hs.usesLocal.mpr hq⟩
        obtain ⟨⟨ty', hty⟩, -⟩ := mem_lrUses.mp h1
        obtain ⟨q, hq⟩ := key t h1
        obtain ⟨q', hq'⟩ := key t' h2
        exact hne (hv.localOnce r ty' t q t' q' ((hs.localRes _ _).mp hty) hq hq')
    · obtain ⟨i, hi⟩ := Option.isSome_iff_exists.mp hid
      obtain ⟨args, hargs, -⟩ := hs.sw _ _ hst
      obtain ⟨args', hargs', -⟩ := hs.idle i hi
      rw [h0] at hargs
      exact hv.zero _ _ _ _ _ hargs hargs'

/-! ## dispatchers and code generation -/

theorem enough_iff (hs : Says raw app) : EnoughDispatchers raw ↔ ((toSet (app.sw.map fun nt => nt.2.priority)).filter (0 < ·)).length ≤ app.dispatchers.length := by
  rw [hs.dispatchers]
  constructor
  · intro h
    refine h _ (nodup_toSet.filter _) fun q hq => ?_
    simp only [List.mem_filter, mem_toSet, List.mem_map, decide_eq_true_eq] at hq
    obtain ⟨⟨nt, hnt, rfl⟩, h0⟩ := hq
    obtain ⟨args, ht, -⟩ := hs.sw nt.1 nt.2 hnt
    exact ⟨h0, _, _, ht⟩
  · intro h ps hnd hps
    refine Nat.le_trans (length_le_of_subset hnd fun q hq => ?_) h
    obtain ⟨h0, t, args, ht⟩ := hps q hq
    obtain ⟨st, h1, h2⟩ := sw_of_task hs ht
    simp only [List.mem_filter, mem_toSet, List.mem_map, decide_eq_true_eq]
    exact ⟨⟨_, h1, h2.symm⟩, h0⟩

/-- everything after the checks succeeds -/
theorem back_end (tg : Target) {base : Analysis} (hc : ∃ cs, contexts app = .ok cs) (hn : app.dispatchers.Nodup) (hp : ∀ n t, (n, t) ∈ app.hw → 1 ≤ t.priority)
    (hlen : ((toSet (app.sw.map fun nt => nt.2.priority)).filter (0 < ·)).length ≤ app.dispatchers.length) :
    ∃ an p, fullAnalyze base app = .ok an ∧ DispInv app an.interrupts ∧ codegen tg app an = .ok p := by
  have hfull : ∃ an, fullAnalyze base app = .ok an := by
    unfold fullAnalyze
    simp only
    rw [if_neg (by omega)]
    obtain ⟨l, hl⟩ := popAll_total (ps := ((toSet (app.sw.map fun nt => nt.2.priority)).filter (0 < ·)).reverse) (ds := app.dispatchers) (by simpa using hlen)
    rw [bind_eq hl]
    split
    · exact ⟨_, rfl⟩
    · rename_i hmin
      have := List.min?_mem hmin
      obtain ⟨nt, hnt, h0⟩ := List.mem_map.mp this
      have := hp nt.1 nt.2 hnt
      omega
    · exact ⟨_, rfl⟩
  obtain ⟨an, han⟩ := hfull
  obtain ⟨-, hd, -⟩ := fullAnalyze_ok hn han
  obtain ⟨cs, hcs⟩ := hc
  obtain ⟨ds, hds⟩ : ∃ l, ((toSet (app.sw.map fun nt => nt.2.priority)).mapM fun level => do
      let v ← vectorFor an level
      pure (v, level, channelTasks app level)) = .ok l :=
    mapM_exists fun level hl => by
      obtain ⟨o, ho⟩ := vectorFor_total hd (by simpa [mem_toSet] using hl : ∃ nt ∈ app.sw, nt.2.priority = level)
      rw [bind_eq ho]; exact ⟨_, rfl⟩
  obtain ⟨es, hes⟩ : ∃ l, (app.sw.mapM fun nt => do let v ← vectorFor an nt.2.priority; pure (nt.1, v)) = .ok l :=
    mapM_exists fun nt hnt => by
      obtain ⟨o, ho⟩ := vectorFor_total hd ⟨nt, hnt, rfl⟩
      rw [bind_eq ho]; exact ⟨_, rfl⟩
  refine ⟨an, ?_⟩
  unfold codegen
  rw [bind_eq hcs, bind_eq hds, bind_eq hes]
  exact ⟨_, han, hd, rfl⟩

theorem archCheck_of {tg : Target} (h1 : ∀ d ∈ app.dispatchers, tg.isException d = false ∧ tg.isFixed d = false)
    (h2 : ((toSet (app.sw.map fun nt => nt.2.priority)).filter (0 < ·)).length ≤ app.dispatchers.length) (h3 : ∀ nt ∈ app.hw, tg.isFixed nt.2.binds = false) : archCheck tg app = .ok () := by
  unfold archCheck
  rw [bind_eq (a := ()) (forM_ok.mpr fun a ha => by rw [(h1 a ha).1, (h1 a ha).2]; rfl)]
  rw [← length_toSet_filter] at h2
  simp only
  rw [if_neg (by omega), bind_eq (a := ()) rfl]
  exact forM_ok.mpr fun a ha => by rw [h3 a ha]; rfl

theorem taskIs_cases (hs : Says raw app) {t : Ident} {k : Kind} {q : Nat} {args : List TaskArg} (h : TaskIs raw t k q args) :
    q = 0 ∨ (∃ x, (t, x) ∈ app.hw ∧ x.priority = q) ∨ (0 < q ∧ ∃ x, (t, x) ∈ app.sw ∧ x.priority = q) := by
  obtain ⟨sh, lo, -, hk⟩ := hs.task _ _ _ _ h
  rcases hk with ⟨i, h1, h2, h3, h4, h5, h6⟩ | ⟨i, h1, h2, h3, h5, h6⟩ | ⟨i, h1, h2, h3, h5, h6⟩
  · exact .inl h3
  · exact .inr (.inl ⟨i, h1, h2.symm⟩)
  · by_cases h0 : q = 0
    · exact .inl h0
    · exact .inr (.inr ⟨by omega, i, h1, h2.symm⟩)

/-- a bound on the priorities in the interrupt table and of the hardware tasks is a bound on all priorities -/
theorem prios_iff (hs : Says raw app) {an : FullAnalysis} (hd : DispInv app an.interrupts) (m : Nat) :
    (∀ q ∈ an.interrupts.map Prod.fst ++ app.hw.map fun nt => nt.2.priority, q ≤ m) ↔ ∀ t k q args, TaskIs raw t k q args → q ≤ m := by
  constructor
  · intro h t k q args ht
    rcases taskIs_cases hs ht with rfl | ⟨x, hx, rfl⟩ | ⟨h0, x, hx, rfl⟩
    · omega
    · exact h _ (List.mem_append_right _ (List.mem_map.mpr ⟨_, hx, rfl⟩))
    · obtain ⟨v, hv⟩ := (hd.keys x.priority).mpr ⟨h0, _, hx, rfl⟩
      exact h _ (List.mem_append_left _ (List.mem_map.mpr ⟨_, hv, rfl⟩))
  · intro h q hq
    rcases List.mem_append.mp hq with hq | hq
    · obtain ⟨⟨q', v⟩, hm, rfl⟩ := List.mem_map.mp hq
      obtain ⟨-, nt, hnt, he⟩ := (hd.keys q').mp ⟨v, hm⟩
      obtain ⟨args, ht, -⟩ := hs.sw nt.1 nt.2 hnt
      rw [he] at ht
      exact h _ _ _ _ ht
    · obtain ⟨nt, hnt, rfl⟩ := List.mem_map.mp hq
      obtain ⟨args, ht, -⟩ := hs.hw nt.1 nt.2 hnt
      exact h _ _ _ _ ht

/-! ## the theorems -/

/-- **C84** For Cortex-M the `#[app]` macro (and the assertions it generates) accepts an application if and only if the application follows the rules. -/
theorem C84_accepted_iff (tg : Target) (bits : Nat) (raw : Raw) : (∃ p, expand tg bits raw = .ok p) ↔ Valid tg bits raw := by
  constructor
  · rintro ⟨p, h⟩
    obtain ⟨app, base, an, he⟩ := expand_ok h
    have hs := he.says
    obtain ⟨a1, a2, a3⟩ := archCheck_ok he.arch
    refine ⟨itemsValid_of_parse he.parse, usesValid_of hs he.check he.noErrors, (enough_iff hs).mpr a2, ?_, ?_, ?_⟩
    · rw [← hs.dispatchers]; exact a1
    · intro t v q args ht
      obtain ⟨x, hx, rfl, -⟩ := hw_of_task hs ht
      exact a3 _ hx
    · refine (prios_iff hs he.disp _).mp fun q hq => ?_
      have := he.fits
      unfold fits at this
      simpa using List.all_eq_true.mp this q hq
  · intro hv
    obtain ⟨app, hp⟩ := parse_of_itemsValid hv.items
    have hs := says_of_parse hp
    obtain ⟨hc, hne⟩ := check_of_usesValid hs hv.uses
    have hlen := (enough_iff hs).mp hv.enough
    have ha : archCheck tg app = .ok () := archCheck_of (by rw [hs.dispatchers]; exact hv.dispatchers) hlen (by
      rintro ⟨n, t⟩ hm
      obtain ⟨args, ht, -⟩ := hs.hw n t hm
      exact hv.bound _ _ _ _ ht)
    rcases analyze_cases hc with ⟨he, -⟩ | ⟨-, base, hb⟩
    · exact absurd hne he
    · obtain ⟨an, p, h1, h2, h3⟩ := back_end tg (base := base) (contexts_total hc) hs.nodupD (fun n t hm => (hs.hwPrio n t hm).1) hlen
      have hf : fits bits app an = true := by
        unfold fits
        rw [List.all_eq_true]
        intro q hq
        simpa using (prios_iff hs h2 _).mpr hv.priorities q hq
      refine ⟨p, ?_⟩
      unfold expand
      rw [bind_eq hp, bind_eq hc, bind_eq hb, bind_eq ha, bind_eq h1, bind_eq h3, if_pos hf]
      rfl

/-- **C84** With SLIC an application is accepted if and only if it follows the rules. (`fresh i` is the identifier `__RTICDispatcher<i>`.) -/
theorem C84_slic_accepted_iff {fresh : Nat → Ident} (hf : ∀ i j, fresh i = fresh j → i = j) (bk : Bool) (raw : Raw) : (∃ p, expandSlic fresh bk raw = .ok p) ↔ ValidSlic bk raw := by
  constructor
  · rintro ⟨p, h⟩
    unfold expandSlic backSlic at h
    obtain ⟨app, h1, h⟩ := bind_ok h
    obtain ⟨⟨⟩, h2, h⟩ := bind_ok h
    obtain ⟨base, h3, h⟩ := bind_ok h
    obtain ⟨app', hpre, h⟩ := bind_ok h
    obtain ⟨⟨⟩, h4, h⟩ := bind_ok h
    have hs := says_of_parse h1
    have hne : analyzeErrors app = [] := by
      rcases analyze_cases h2 with ⟨-, he⟩ | ⟨he, -⟩
      · rw [h3] at he; cases he
      · exact he
    refine ⟨itemsValid_of_parse h1, usesValid_of hs h2 hne, ?_, ?_⟩
    · unfold slicPreprocess at hpre
      split at hpre
      · cases hpre
      · rename_i hnil; rw [← hs.dispatchers]; simpa using hnil
    · unfold archCheckSlic at h4
      simp only at h4
      split at h4
      · cases h4
      · obtain ⟨⟨⟩, -, h4⟩ := bind_ok h4
        split at h4
        · assumption
        · cases h4
  · intro hv
    obtain ⟨app, hp⟩ := parse_of_itemsValid hv.items
    have hs := says_of_parse hp
    obtain ⟨hc, hne⟩ := check_of_usesValid hs hv.uses
    have hnil : app.dispatchers = [] := by rw [hs.dispatchers, hv.dispatchers]
    rcases analyze_cases hc with ⟨he, -⟩ | ⟨-, base, hb⟩
    · exact absurd hne he
    · have hpre : slicPreprocess fresh app = .ok { app with dispatchers := slicNames fresh (toSet ((app.sw.map fun nt => nt.2.priority).filter (0 < ·))).length } := by
        unfold slicPreprocess slicNames
        rw [if_neg (by simp [hnil])]
      generalize hn : (toSet ((app.sw.map fun nt => nt.2.priority).filter (0 < ·))).length = n at hpre
      have hlen : ((toSet (app.sw.map fun nt => nt.2.priority)).filter (0 < ·)).length ≤ (slicNames fresh n).length := by
        rw [← length_toSet_filter, hn]; simp [slicNames]
      have h4 : archCheckSlic bk { app with dispatchers := slicNames fresh n } = .ok () := by
        unfold archCheckSlic
        simp only
        rw [if_neg (by rw [hn]; simp [slicNames]), hv.backend]
        rfl
      obtain ⟨an, p, h1, h2, h3⟩ := back_end .riscv (base := base) (app := { app with dispatchers := slicNames fresh n }) (show ∃ cs, contexts { app with dispatchers := slicNames fresh n } = .ok cs from contexts_total (app := app) hc) (slicNames_nodup hf n) (fun n t hm => (hs.hwPrio n t hm).1) hlen
      refine ⟨⟨p, slicSwi { app with dispatchers := slicNames fresh n }⟩, ?_⟩
      unfold expandSlic backSlic
      rw [bind_eq hp, bind_eq hc, bind_eq hb, bind_eq hpre, bind_eq h4, bind_eq h1, bind_eq h3]
      rfl

/-! ### ESP32 -/

theorem archCheckEsp_of {fc : Ident → Bool} (h1 : ∀ d ∈ app.dispatchers, fc d = true) (h2 : ((toSet (app.sw.map fun nt => nt.2.priority)).filter (0 < ·)).length ≤ app.dispatchers.length) : archCheckEsp fc app = .ok () := by
  unfold archCheckEsp
  rw [bind_eq (a := ()) (forM_ok.mpr fun a ha => by rw [if_pos (h1 a ha)])]
  rw [← length_toSet_filter] at h2
  simp only
  rw [if_neg (by omega)]

/-- if every interrupt has a line, all are enabled -/
theorem espFits_iff {chip : Chip} {an : FullAnalysis} (hs : Says raw app) (hd : DispInv app an.interrupts) (hl : ∀ i, i < (espVectors app an).length → ∃ k, chip.line i = some k) :
    espFits (espEnables chip app an) = true ↔ ∀ t k q args, TaskIs raw t k q args → q ≤ 14 := by
  rw [← prios_iff hs hd]
  unfold espFits espEnables
  rw [List.all_eq_true]
  have hvec : ∀ q, q ∈ (an.interrupts.map Prod.fst ++ app.hw.map fun nt => nt.2.priority) ↔ ∃ v, (q, v) ∈ espVectors app an := by
    intro q
    simp only [espVectors, List.mem_append, List.mem_map]
    constructor
    · rintro (⟨⟨q', v⟩, h, rfl⟩ | ⟨nt, h, rfl⟩)
      · exact ⟨v, .inl h⟩
      · exact ⟨nt.2.binds, .inr ⟨nt, h, rfl⟩⟩
    · rintro ⟨v, h | ⟨nt, h, e⟩⟩
      · exact .inl ⟨_, h, rfl⟩
      · cases e; exact .inr ⟨nt, h, rfl⟩
  constructor
  · intro h q hq
    obtain ⟨v, hv⟩ := (hvec q).mp hq
    obtain ⟨j, hj, hjv⟩ := List.getElem_of_mem hv
    obtain ⟨k, hk⟩ := hl j hj
    have := h _ (espZip_get (i := 0) (j := j) (k := k) (fun j' hj' => by rw [Nat.zero_add]; exact hl j' (by omega)) (by rw [List.getElem?_eq_getElem hj, hjv]) (by rw [Nat.zero_add]; exact hk))
    simp only [decide_eq_true_eq] at this
    omega
  · intro h e he
    obtain ⟨j, hj, -⟩ := espZip_mem he
    have hm : (e.2.1, e.1) ∈ espVectors app an := List.mem_of_getElem? hj
    have h14 := h _ ((hvec _).mpr ⟨_, hm⟩)
    have h1 : 1 ≤ e.2.1 := by
      simp only [espVectors, List.mem_append, List.mem_map] at hm
      rcases hm with hm | ⟨nt, hnt, e1⟩
      · exact ((hd.keys _).mp ⟨_, hm⟩).1
      · simp only [Prod.mk.injEq] at e1; rw [← e1.1]; exact (hs.hwPrio nt.1 nt.2 hnt).1
    simp only [decide_eq_true_eq]
    omega

theorem espExpand_iff {chip : Chip} {fc : Ident → Bool} (raw : Raw)
    (hl : ∀ app an, Says raw app → DispInv app an.interrupts → ∀ i, i < (espVectors app an).length → ∃ k, chip.line i = some k) : (∃ p, expandEsp chip fc raw = .ok p) ↔ ValidEsp fc raw := by
  constructor
  · rintro ⟨ep, h⟩
    obtain ⟨p, app, base, an, -, he⟩ := expandEsp_ok h
    have hs := he.exp.says
    obtain ⟨a1, a2⟩ := archCheckEsp_ok he.arch
    rw [length_toSet_filter] at a2
    refine ⟨itemsValid_of_parse he.exp.parse, usesValid_of hs he.exp.check he.exp.noErrors, (enough_iff hs).mpr a2, ?_, ?_⟩
    · rw [← hs.dispatchers]; exact a1
    · exact (espFits_iff hs he.exp.disp (hl _ _ hs he.exp.disp)).mp he.fits
  · intro hv
    obtain ⟨app, hp⟩ := parse_of_itemsValid hv.items
    have hs := says_of_parse hp
    obtain ⟨hc, hne⟩ := check_of_usesValid hs hv.uses
    have hlen := (enough_iff hs).mp hv.enough
    have ha := archCheckEsp_of (fc := fc) (by rw [hs.dispatchers]; exact hv.dispatchers) hlen
    rcases analyze_cases hc with ⟨he, -⟩ | ⟨-, base, hb⟩
    · exact absurd hne he
    · obtain ⟨an, p, h1, h2, h3⟩ := back_end .riscv (base := base) (contexts_total hc) hs.nodupD (fun n t hm => (hs.hwPrio n t hm).1) hlen
      have hf := (espFits_iff (chip := chip) hs h2 (hl _ _ hs h2)).mpr hv.priorities
      unfold expandEsp backEsp
      rw [bind_eq hp, bind_eq hc, bind_eq hb, bind_eq ha, bind_eq h1, bind_eq h3]
      simp only
      rw [if_pos hf]
      exact ⟨_, rfl⟩

/-- **C84** On ESP32-C3 an application is accepted if and only if it follows the rules. -/
theorem C84_esp32c3_accepted_iff (fc : Ident → Bool) (raw : Raw) : (∃ p, expandEsp .c3 fc raw = .ok p) ↔ ValidEsp fc raw :=
  espExpand_iff raw fun _ _ _ _ _ _ => ⟨_, rfl⟩

/-- **C84** On ESP32-C6 an application whose dispatchers and bound interrupts are at most twelve is accepted if and only if it follows the rules. (With more, some priorities are not checked: C70.) -/
theorem C84_esp32c6_accepted_iff (fc : Ident → Bool) (raw : Raw) (hn : ∀ vs : List Ident, vs.Nodup → (∀ v ∈ vs, v ∈ raw.dispatchers ∨ ∃ t q args, TaskIs raw t (.hardware v) q args) → vs.length ≤ 12)
    (hsep : ∀ t v q args, TaskIs raw t (.hardware v) q args → v ∉ raw.dispatchers) : (∃ p, expandEsp .c6 fc raw = .ok p) ↔ ValidEsp fc raw := by
  refine espExpand_iff raw fun app an hs hd i hi => ?_
  have : (espVectors app an).length ≤ 12 := by
    have hlen : ((espVectors app an).map Prod.snd).length ≤ 12 := by
      apply hn
      · simp only [espVectors, List.map_append, List.map_map]
        rw [List.nodup_append]
        refine ⟨hd.nodupV, hs.nodupB, ?_⟩
        intro x hx y hy
        obtain ⟨⟨q, v⟩, hm, rfl⟩ := List.mem_map.mp hx
        obtain ⟨nt, hnt, rfl⟩ := List.mem_map.mp hy
        obtain ⟨args, ht, -⟩ := hs.hw nt.1 nt.2 hnt
        intro e
        have := hd.sub _ _ hm
        rw [hs.dispatchers] at this
        have e : v = nt.2.binds := e
        rw [e] at this
        exact hsep _ _ _ _ ht this
      · intro v hv
        simp only [espVectors, List.map_append, List.map_map, List.mem_append, List.mem_map] at hv
        rcases hv with ⟨⟨q, v⟩, hm, rfl⟩ | ⟨nt, hnt, rfl⟩
        · left; rw [← hs.dispatchers]; exact hd.sub _ _ hm
        · obtain ⟨args, ht, -⟩ := hs.hw nt.1 nt.2 hnt
          exact .inr ⟨_, _, _, ht⟩
    simpa using hlen
  refine ⟨20 + i, ?_⟩
  simp only [Chip.line]
  rw [if_pos (by omega)]

/-! ## examples -/

/-- the example follows the rules, on all targets -/
example : Valid exTarget 4 exRaw := (C84_accepted_iff _ _ _).mp ⟨exProg, exRaw_accepted⟩

example : ValidEsp (fun i => decide (i = 50 ∨ i = 51)) exRaw := (C84_esp32c3_accepted_iff _ _).mp (exRaw_esp.imp fun _ h => h.1)

/-- and so does the empty application, shown from the rules alone -/
theorem exEmpty_valid : Valid exTarget 4 { dispatchers := [], items := [.sharedStruct 1 [], .localStruct 2 [], .init 3 [] true 1 2] } := by
  have ht : ∀ t k q args, ¬ TaskIs { dispatchers := [], items := [.sharedStruct 1 [], .localStruct 2 [], .init 3 [] true 1 2] } t k q args := by
    intro t k q args h
    cases h <;> simp_all
  have hu : ∀ t q r a, ¬ UsesShared { dispatchers := [], items := [.sharedStruct 1 [], .localStruct 2 [], .init 3 [] true 1 2] } t q r a := fun _ _ _ _ ⟨_, _, _, h, _⟩ => ht _ _ _ _ h
  have hl : ∀ t q r, ¬ UsesLocal { dispatchers := [], items := [.sharedStruct 1 [], .localStruct 2 [], .init 3 [] true 1 2] } t q r := fun _ _ _ ⟨_, _, _, h, _⟩ => ht _ _ _ _ h
  refine ⟨⟨⟨3, [], 1, 2, by simp, ⟨by simp, by simp, by simp, by simp, by simp⟩, by simp, ⟨[], [], rfl, by simp, by simp⟩, ⟨[], [], rfl, by simp, by simp⟩⟩, (by intro t _ _ _ _ t' _ _ _ _ h h'; simp at h h'; exact h.1.trans h'.1.symm), by simp, by simp, by simp, by simp [Raw.functions],
      fun _ _ _ _ _ _ _ h => absurd h (ht _ _ _ _), by simp⟩, ⟨fun _ _ _ _ h => absurd h (hu _ _ _ _), fun _ _ _ h => absurd h (hl _ _ _), fun _ _ _ _ _ _ _ h => absurd h (hu _ _ _ _), fun _ _ _ _ => ⟨fun _ _ _ _ _ _ h => absurd h (hu _ _ _ _), fun _ _ _ _ h => absurd h (ht _ _ _ _)⟩,
      fun _ _ _ _ _ _ _ h => absurd h (hl _ _ _), ?_, fun _ _ _ _ _ h => absurd h (ht _ _ _ _), fun _ _ _ _ h => absurd h (ht _ _ _ _)⟩, ?_, by simp, fun _ _ _ _ h => absurd h (ht _ _ _ _), fun _ _ _ _ h => absurd h (ht _ _ _ _)⟩
  · rintro r ty t ⟨i, f, h, hm⟩
    simp at h
    rw [h.2] at hm
    cases hm
  · intro ps _ h
    cases ps with
    | nil => exact Nat.zero_le _
    | cons q ps => obtain ⟨_, t, args, h⟩ := h q List.mem_cons_self; exact absurd h (ht _ _ _ _)

/-- an application that violates a rule: there are software tasks of two priorities but only one dispatcher -/
example : ¬ Valid exTarget 4 { exRaw with dispatchers := [50] } := by
  rw [← C84_accepted_iff]
  rintro ⟨p, h⟩
  have : expand exTarget 4 { exRaw with dispatchers := [50] } = .error (.errors [.notEnough]) := by decide +kernel
  rw [this] at h; cases h

end Verif.Analysis
