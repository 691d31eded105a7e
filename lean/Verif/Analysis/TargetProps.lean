import Verif.Analysis.Targets
import Verif.Analysis.Props

/-! # RISC-V targets: theorems (C70, C72) -/

namespace Verif.Analysis

variable {chip : Chip} {fc : Ident → Bool} {raw : Raw} {ep : EspProgram}

theorem bind_eq {α β : Type} {x : Res α} {a : α} (h : x = .ok a) (f : α → Res β) : (x >>= f) = f a := by rw [h]; rfl

theorem fits_riscv {app : App} {an : FullAnalysis} (hs : Says raw app) (hd : DispInv app an.interrupts) : fits 8 app an = true := by
  simp only [fits, List.all_eq_true, decide_eq_true_eq, List.mem_append, List.mem_map]
  rintro q (⟨x, hx, rfl⟩ | ⟨x, hx, rfl⟩)
  · obtain ⟨-, nt, hnt, he⟩ := (hd.keys x.1).mp ⟨x.2, hx⟩
    have := hs.swPrio nt.1 nt.2 hnt
    omega
  · have := (hs.hwPrio x.1 x.2 hx).2
    omega

theorem archCheck_riscv {app : App} (h : ((toSet ((app.sw.map fun nt => nt.2.priority).filter (0 < ·))).length ≤ app.dispatchers.length)) : archCheck .riscv app = .ok () := by
  unfold archCheck
  simp only [Target.riscv, Bool.or_self, Bool.false_eq_true, if_false]
  rw [bind_eq (a := ()) (forM_ok.mpr fun _ _ => rfl)]
  rw [if_neg (by omega), bind_eq (a := ()) rfl]
  exact forM_ok.mpr fun _ _ => rfl

theorem archCheckEsp_ok {app : App} (h : archCheckEsp fc app = .ok ()) :
    (∀ d ∈ app.dispatchers, fc d = true) ∧ ((toSet ((app.sw.map fun nt => nt.2.priority).filter (0 < ·))).length ≤ app.dispatchers.length) := by
  unfold archCheckEsp at h
  obtain ⟨⟨⟩, h1, h⟩ := bind_ok h
  constructor
  · intro d hd
    have := forM_ok.mp h1 d hd
    split at this
    · assumption
    · cases this
  · simp only at h
    split at h
    · cases h
    · omega

/-- what a successful expansion on ESP32 went through -/
structure EspExpanded (chip : Chip) (fc : Ident → Bool) (raw : Raw) (ep : EspProgram) (p : Program) (app : App) (base : Analysis) (an : FullAnalysis) : Prop where
  exp : Expanded .riscv 8 raw p app base an
  arch : archCheckEsp fc app = .ok ()
  fits : espFits (espEnables chip app an) = true
  code : ep.code = { p with main := espMain (espEnables chip app an) app an }
  enables : ep.enables = espEnables chip app an
  exports : ep.exports = (espVectors app an).map fun pv => (pv.2, espExports chip app an pv.2)

theorem expandEsp_ok (h : expandEsp chip fc raw = .ok ep) : ∃ p app base an, expand .riscv 8 raw = .ok p ∧ EspExpanded chip fc raw ep p app base an := by
  unfold expandEsp backEsp at h
  obtain ⟨app, h1, h⟩ := bind_ok h
  obtain ⟨⟨⟩, h2, h⟩ := bind_ok h
  obtain ⟨base, h3, h⟩ := bind_ok h
  obtain ⟨⟨⟩, h4, h⟩ := bind_ok h
  obtain ⟨an, h5, h⟩ := bind_ok h
  obtain ⟨p, h6, h⟩ := bind_ok h
  simp only at h
  split at h
  · rename_i hf
    cases h
    have hs := says_of_parse h1
    obtain ⟨f1, f2, -⟩ := fullAnalyze_ok hs.nodupD h5
    have ha := archCheck_riscv (archCheckEsp_ok h4).2
    have hfit := fits_riscv hs f2
    refine ⟨p, app, base, an, ?_, ⟨h1, hs, h2, h3, ?_, ha, h5, f1, f2, h6, hfit⟩, h4, hf, rfl, rfl, rfl⟩
    · unfold expand
      rw [bind_eq h1, bind_eq h2, bind_eq h3, bind_eq ha, bind_eq h5, bind_eq h6, if_pos hfit]; rfl
    · rcases analyze_cases h2 with ⟨-, he⟩ | ⟨he, -⟩
      · rw [h3] at he; cases he
      · exact he
  · cases h

/-- **C62** (ESP32) For no input does the macro run into one of its internal `expect`s, `assert`s or an arithmetic underflow. -/
theorem C62_esp_no_internal_panic (chip : Chip) (fc : Ident → Bool) (raw : Raw) : expandEsp chip fc raw ≠ .error .bug := by
  intro h
  apply C62_no_internal_panic .riscv 8 raw
  unfold expandEsp backEsp at h
  unfold expand
  cases h1 : parse raw with
  | error e => rw [h1] at h; cases h; rfl
  | ok app =>
  rw [bind_eq h1] at h
  rw [bind_eq rfl]
  cases h2 : check app with
  | error e => rw [h2] at h; cases h; rfl
  | ok u =>
  rw [bind_eq h2] at h
  rw [bind_eq rfl]
  cases h3 : analyze app with
  | error e => rw [h3] at h; cases h; rfl
  | ok base =>
  rw [bind_eq h3] at h
  rw [bind_eq rfl]
  cases h4 : archCheckEsp fc app with
  | error e =>
    rw [h4] at h
    have hp : Fails PlainFail (archCheckEsp fc app) := by
      unfold archCheckEsp
      exact fails_bind (fails_forM fun _ _ => fails_ite (fun _ => fails_ok _) fun _ => plain_err rfl) fun _ _ => fails_ite (fun _ => plain_err rfl) fun _ => fails_ok _
    have := hp e h4
    cases h
    exact absurd rfl (plain_notBug this)
  | ok u =>
  rw [bind_eq h4] at h
  rw [bind_eq (archCheck_riscv (archCheckEsp_ok h4).2)]
  cases h5 : fullAnalyze base app with
  | error e => rw [h5] at h; cases h; rfl
  | ok an =>
  rw [bind_eq h5] at h
  rw [bind_eq rfl]
  cases h6 : codegen .riscv app an with
  | error e => rw [h6] at h; cases h; rfl
  | ok p =>
  rw [bind_eq h6] at h
  simp only at h
  split at h <;> cases h

/-! ## C70: interrupt lines -/

/-- number of lines the chip offers to the application, and the first one -/
def Chip.count : Chip → Nat
  | .c3 => 16
  | .c6 => 12

theorem espZip_mem {i : Nat} {l : List (Nat × Ident)} {e : Ident × Nat × Nat} (h : e ∈ espZip chip i l) :
    ∃ j, l[j]? = some (e.2.1, e.1) ∧ chip.line (i + j) = some e.2.2 := by
  induction l generalizing i with
  | nil => simp [espZip] at h
  | cons x l ih =>
    simp only [espZip] at h
    split at h
    · simp at h
    · rename_i k hk
      rcases List.mem_cons.mp h with rfl | h
      · exact ⟨0, by simp, by simpa using hk⟩
      · obtain ⟨j, h1, h2⟩ := ih h
        exact ⟨j + 1, by simpa using h1, by rw [← h2]; congr 1; omega⟩

theorem espZip_get {i j k : Nat} {l : List (Nat × Ident)} {p : Nat} {v : Ident} (hall : ∀ j', j' ≤ j → ∃ k, chip.line (i + j') = some k) (hj : l[j]? = some (p, v)) (hk : chip.line (i + j) = some k) :
    (v, p, k) ∈ espZip chip i l := by
  induction l generalizing i j with
  | nil => simp at hj
  | cons x l ih =>
    simp only [espZip]
    obtain ⟨k0, hk0⟩ := hall 0 (Nat.zero_le _)
    rw [Nat.add_zero] at hk0
    rw [hk0]
    cases j with
    | zero =>
      simp only [List.getElem?_cons_zero, Option.some.injEq] at hj
      rw [Nat.add_zero, hk0] at hk
      cases hk; subst hj
      exact List.mem_cons_self
    | succ j =>
      refine List.mem_cons_of_mem _ (ih (i := i + 1) (j := j) (fun j' hj' => ?_) (by simpa using hj) ?_)
      · obtain ⟨k, hk⟩ := hall (j' + 1) (by omega)
        exact ⟨k, by rw [← hk]; congr 1; omega⟩
      · rw [← hk]; congr 1; omega

theorem line_inj {i j k : Nat} (h1 : chip.line i = some k) (h2 : chip.line j = some k) : i = j := by
  cases chip <;> simp only [Chip.line] at h1 h2
  · simp only [Option.some.injEq] at h1 h2; omega
  · split at h1 <;> split at h2 <;> simp only [Option.some.injEq, reduceCtorEq] at h1 h2; omega

theorem line_of_lt {i : Nat} (h : i < chip.count) : ∃ k, chip.line i = some k ∧ 32 - chip.count ≤ k ∧ k ≤ 31 := by
  cases chip <;> simp only [Chip.count] at h <;> simp only [Chip.line, Chip.count]
  · exact ⟨_, rfl, by omega, by omega⟩
  · rw [if_pos h]; exact ⟨_, rfl, by omega, by omega⟩

/-- vectors of dispatchers and hardware tasks are pairwise different -/
theorem espVectors_nodup {tg : Target} {bits : Nat} {p : Program} {app : App} {base : Analysis} {an : FullAnalysis} (he : Expanded tg bits raw p app base an) :
    ((espVectors app an).map Prod.snd).Nodup := by
  simp only [espVectors, List.map_append, List.map_map]
  rw [List.nodup_append]
  refine ⟨he.disp.nodupV, ?_, ?_⟩
  · exact he.says.nodupB
  · intro a ha b hb e
    subst e
    obtain ⟨x, hx, rfl⟩ := List.mem_map.mp ha
    obtain ⟨nt, hnt, hb⟩ := List.mem_map.mp hb
    have := (check_ok he.check).2.2.2 nt hnt
    simp only [Function.comp_apply] at hb
    rw [hb] at this
    exact this (he.disp.sub _ _ hx)

/-- the handlers of the program: (vector, priority) -/
def Program.handler (p : Program) (v : Ident) (q : Nat) : Prop := (∃ t, (v, q, t) ∈ p.hwHandlers) ∨ ∃ ts, (some v, q, ts) ∈ p.dispatchers

theorem mem_espVectors {tg : Target} {bits : Nat} {p : Program} {app : App} {base : Analysis} {an : FullAnalysis} (he : Expanded tg bits raw p app base an) {v : Ident} {q : Nat} :
    (q, v) ∈ espVectors app an ↔ p.handler v q := by
  have hg := codegen_ok he.codegen
  simp only [espVectors, List.mem_append, List.mem_map, Prod.mk.injEq, Program.handler, hg.hw]
  constructor
  · rintro (h | ⟨nt, hnt, rfl, rfl⟩)
    · right
      obtain ⟨h0, hx⟩ := (he.disp.keys q).mp ⟨v, h⟩
      refine ⟨_, (mem_dispatchers hg).mpr ⟨hx, rfl, ?_⟩⟩
      simp only [vectorFor, h0, if_true]
      have : an.interrupts.lookup q = some v := get?_of_mem (α := Ident) he.disp.nodupK h
      simp [this]
    · exact .inl ⟨nt.1, nt, hnt, rfl, rfl, rfl⟩
  · rintro (⟨t, nt, hnt, rfl, rfl, -⟩ | ⟨ts, h⟩)
    · exact .inr ⟨nt, hnt, rfl, rfl⟩
    · obtain ⟨-, -, hv⟩ := (mem_dispatchers hg).mp h
      rcases vectorFor_ok hv with ⟨-, h0⟩ | ⟨-, w, hw, hm⟩
      · cases h0
      · cases hw; exact .inl hm

theorem handler_code {p p' : Program} (h : p' = { p with main := p'.main }) {v : Ident} {q : Nat} : p'.handler v q ↔ p.handler v q := by
  rw [h]; exact Iff.rfl

/-- number of interrupt handlers of a program -/
def Program.handlerCount (p : Program) : Nat := (p.dispatchers.filter fun d => d.1.isSome).length + p.hwHandlers.length

theorem handlerCount_eq {tg : Target} {bits : Nat} {p : Program} {app : App} {base : Analysis} {an : FullAnalysis} (he : Expanded tg bits raw p app base an) :
    (espVectors app an).length ≤ p.handlerCount := by
  have hg := codegen_ok he.codegen
  have hw : p.hwHandlers.length = app.hw.length := by rw [hg.hw, List.length_map]
  simp only [espVectors, List.length_append, List.length_map, Program.handlerCount, hw]
  apply Nat.add_le_add_right
  have h1 : an.interrupts.length = (an.interrupts.map Prod.fst).length := by simp
  have h2 : (p.dispatchers.filter fun d => d.1.isSome).length = ((p.dispatchers.filter fun d => d.1.isSome).map fun d => d.2.1).length := by simp
  rw [h1, h2]
  apply length_le_of_subset he.disp.nodupK
  intro q hq
  obtain ⟨x, hx, rfl⟩ := List.mem_map.mp hq
  have : p.handler x.2 x.1 := (mem_espVectors he).mp (by simp only [espVectors, List.mem_append]; exact .inl hx)
  rcases this with ⟨t, ht⟩ | ⟨ts, ht⟩
  · rw [hg.hw] at ht
    obtain ⟨nt, hnt, he'⟩ := List.mem_map.mp ht
    have h3 := (check_ok he.check).2.2.2 nt hnt
    have h4 := he.disp.sub _ _ hx
    rw [show nt.2.binds = x.2 from congrArg Prod.fst he'] at h3
    exact absurd h4 h3
  · exact List.mem_map.mpr ⟨_, List.mem_filter.mpr ⟨ht, rfl⟩, rfl⟩

/-- **C70** (partial: for at most 16 interrupt handlers on the C3, 12 on the C6; see `C70_lines_violated`) In an accepted application every handler – of a hardware task or of a dispatcher – is enabled, on one of
the CPU interrupt lines 16–31 (20–31), with its own priority, which is between 1 and 14; no two handlers share a line; the handler is exported as the handler of exactly this line. Nothing else is enabled. -/
theorem C70_lines_partial (h : expandEsp chip fc raw = .ok ep) (hn : ep.code.handlerCount ≤ chip.count) :
    (∀ v q, ep.code.handler v q → 1 ≤ q ∧ q ≤ 14 ∧ ∃ k, 32 - chip.count ≤ k ∧ k ≤ 31 ∧ (∀ q' k', (v, q', k') ∈ ep.enables ↔ q' = q ∧ k' = k) ∧ (∀ ls, (v, ls) ∈ ep.exports ↔ ls = [k])) ∧
    (∀ v q k, (v, q, k) ∈ ep.enables → ep.code.handler v q) ∧
    (∀ v q v' q' k, (v, q, k) ∈ ep.enables → (v', q', k) ∈ ep.enables → v = v') := by
  obtain ⟨p, app, base, an, hp, he⟩ := expandEsp_ok h
  have hcode : ep.code = { p with main := ep.code.main } := by rw [he.code]
  have hcnt : ep.code.handlerCount = p.handlerCount := by rw [hcode]; rfl
  have hlen : (espVectors app an).length ≤ chip.count := by rw [hcnt] at hn; exact Nat.le_trans (handlerCount_eq he.exp) hn
  have hnd := espVectors_nodup he.exp
  have hidx : ∀ {j j' : Nat} {q q' : Nat} {v : Ident}, (espVectors app an)[j]? = some (q, v) → (espVectors app an)[j']? = some (q', v) → j = j' := by
    intro j j' q q' v h1 h2
    have e1 : ((espVectors app an).map Prod.snd)[j]? = some v := by rw [List.getElem?_map, h1]; rfl
    have e2 : ((espVectors app an).map Prod.snd)[j']? = some v := by rw [List.getElem?_map, h2]; rfl
    have hlt : j < ((espVectors app an).map Prod.snd).length := (List.getElem?_eq_some_iff.mp e1).1
    exact (List.getElem?_inj hlt hnd).mp (e1.trans e2.symm)
  have hen : ∀ v q k, (v, q, k) ∈ ep.enables ↔ ∃ j, (espVectors app an)[j]? = some (q, v) ∧ chip.line j = some k := by
    intro v q k
    rw [he.enables]
    constructor
    · intro hm
      obtain ⟨j, h1, h2⟩ := espZip_mem hm
      exact ⟨j, h1, by simpa using h2⟩
    · rintro ⟨j, h1, h2⟩
      refine espZip_get (fun j' hj' => ?_) h1 (by simpa using h2)
      have := (List.getElem?_eq_some_iff.mp h1).1
      obtain ⟨k, hk, -⟩ := line_of_lt (chip := chip) (i := 0 + j') (by omega)
      exact ⟨k, hk⟩
  have huniq : ∀ {v q q' k k'}, (v, q, k) ∈ ep.enables → (v, q', k') ∈ ep.enables → q = q' ∧ k = k' := by
    intro v q q' k k' h1 h2
    obtain ⟨j, a1, a2⟩ := (hen _ _ _).mp h1
    obtain ⟨j', b1, b2⟩ := (hen _ _ _).mp h2
    have := hidx a1 b1
    subst this
    rw [a1] at b1; rw [a2] at b2
    cases b1; cases b2; exact ⟨rfl, rfl⟩
  refine ⟨?_, ?_, ?_⟩
  · intro v q hv
    have hm := (mem_espVectors he.exp).mpr ((handler_code hcode).mp hv)
    obtain ⟨j, hj⟩ := List.mem_iff_getElem?.mp hm
    have hjlt := (List.getElem?_eq_some_iff.mp hj).1
    obtain ⟨k, hk, hk1, hk2⟩ := line_of_lt (chip := chip) (i := j) (by omega)
    have hmem := (hen v q k).mpr ⟨j, hj, hk⟩
    have hf := he.fits
    rw [← he.enables] at hf
    have hf := List.all_eq_true.mp hf _ hmem
    simp only [decide_eq_true_eq] at hf
    refine ⟨hf.1, by omega, k, hk1, hk2, fun q' k' => ⟨fun hx => huniq hx hmem, ?_⟩, ?_⟩
    · rintro ⟨rfl, rfl⟩; exact hmem
    · -- exports
      have hfil : ∀ (l : List (Ident × Nat × Nat)), (l.map Prod.fst).Nodup → (v, q, k) ∈ l → (l.filter fun e => e.1 = v) = [(v, q, k)] := by
        intro l hnd hm
        induction l with
        | nil => simp at hm
        | cons x l ih =>
          simp only [List.map_cons, List.nodup_cons] at hnd
          rw [List.filter_cons]
          rcases List.mem_cons.mp hm with rfl | hm
          · rw [if_pos (by simp)]
            congr 1
            rw [List.filter_eq_nil_iff]
            intro e hel hev
            simp only [decide_eq_true_eq] at hev
            exact hnd.1 (List.mem_map.mpr ⟨e, hel, hev⟩)
          · rw [if_neg, ih hnd.2 hm]
            simp only [decide_eq_true_eq]
            intro hx
            exact hnd.1 (List.mem_map.mpr ⟨_, hm, hx.symm⟩)
      have hz : ((espEnables chip app an).map Prod.fst).Nodup := by
        have hsub : ∀ (i : Nat) (l : List (Nat × Ident)), ((espZip chip i l).map Prod.fst).Sublist (l.map Prod.snd) := by
          intro i l
          induction l generalizing i with
          | nil => simp [espZip]
          | cons x l ih =>
            simp only [espZip]
            split
            · exact List.nil_sublist _
            · simp only [List.map_cons]; exact (ih _).cons_cons _
        exact (hsub _ _).nodup hnd
      have hex : espExports chip app an v = [k] := by
        unfold espExports
        rw [he.enables] at hmem
        rw [hfil _ hz hmem]; rfl
      intro ls
      rw [he.exports]
      simp only [List.mem_map, Prod.mk.injEq]
      constructor
      · rintro ⟨pv, -, rfl, rfl⟩; exact hex
      · rintro rfl; exact ⟨(q, v), hm, rfl, hex⟩
  · intro v q k hm
    obtain ⟨j, hj, -⟩ := (hen _ _ _).mp hm
    exact (handler_code hcode).mpr ((mem_espVectors he.exp).mp (List.mem_of_getElem? hj))
  · intro v q v' q' k h1 h2
    obtain ⟨j, a1, a2⟩ := (hen _ _ _).mp h1
    obtain ⟨j', b1, b2⟩ := (hen _ _ _).mp h2
    have := line_inj a2 b2
    subst this
    rw [a1] at b1; cases b1; rfl

/-- **C70** The dispatchers of an accepted application are software interrupts of the chip (`FROM_CPU_INTR0`–`3`): `pend` accepts them. -/
theorem C70_dispatchers_pendable (h : expandEsp chip fc raw = .ok ep) {v : Ident} {q : Nat} {ts : List Ident} (hd : (some v, q, ts) ∈ ep.code.dispatchers) : fc v = true := by
  obtain ⟨p, app, base, an, hp, he⟩ := expandEsp_ok h
  rw [he.code] at hd
  have := ((C44_one_dispatcher_per_priority hp).2.2.2.1 _ _ _ hd).1
  rw [← he.exp.says.dispatchers] at this
  exact (archCheckEsp_ok he.arch).1 _ this

/-- the task reached through the pended vector: spawning or waking a task pends a software interrupt whose handler is enabled and polls the task -/
theorem C70_spawn_reaches_line_partial (h : expandEsp chip fc raw = .ok ep) (hn : ep.code.handlerCount ≤ chip.count) {t : Ident} {q : Nat} {args : List TaskArg}
    (ht : TaskIs raw t .software q args) (h0 : 0 < q) :
    ∃ v ts k, (∀ o, (t, o) ∈ ep.code.pends ↔ o = some v) ∧ fc v = true ∧ (some v, q, ts) ∈ ep.code.dispatchers ∧ t ∈ ts ∧ (v, q, k) ∈ ep.enables ∧ k ≤ 31 ∧ (v, [k]) ∈ ep.exports := by
  obtain ⟨p, app, base, an, hp, he⟩ := expandEsp_ok h
  obtain ⟨o, ts, h1, h2, h3, -⟩ := C44_task_polled_by_own_dispatcher hp ht
  cases o with
  | none => have := (C44_one_dispatcher_per_priority hp).2.2.2.2 _ _ h1; omega
  | some v =>
    have hd : (some v, q, ts) ∈ ep.code.dispatchers := by rw [he.code]; exact h1
    obtain ⟨-, -, k, -, hk, hm, hx⟩ := (C70_lines_partial h hn).1 v q (.inr ⟨ts, hd⟩)
    exact ⟨v, ts, k, fun o => by rw [he.code]; exact h3 o, C70_dispatchers_pendable h hd, hd, h2, (hm _ _).mpr ⟨rfl, rfl⟩, hk, (hx _).mpr rfl⟩

/-- an application with `n` hardware tasks (and one `#[init]`) -/
def manyRaw (n : Nat) : Raw :=
  { dispatchers := [],
    items := [.sharedStruct 1 [], .localStruct 2 [], .init 3 [] true 1 2] ++ (List.range n).map fun i => .task (100 + i) [.binds (200 + i), .priority 1] false [] true }

/-- **C70** violated: an application with 13 hardware tasks is accepted on the ESP32-C6, and the interrupt of the last one is neither enabled nor has it a handler; with 17 hardware tasks on the ESP32-C3 the last is
enabled on line 32, which does not exist. -/
theorem C70_lines_violated :
    (∃ ep, expandEsp .c6 (fun _ => false) (manyRaw 13) = .ok ep ∧ (212, 1, 112) ∈ ep.code.hwHandlers ∧ (∀ q k, (212, q, k) ∉ ep.enables) ∧ (212, []) ∈ ep.exports) ∧
    (∃ ep, expandEsp .c3 (fun _ => false) (manyRaw 17) = .ok ep ∧ (216, 1, 116) ∈ ep.code.hwHandlers ∧ (216, 1, 32) ∈ ep.enables) := by
  constructor
  · cases h : expandEsp .c6 (fun _ => false) (manyRaw 13) with
    | error e =>
      have : (match expandEsp .c6 (fun _ => false) (manyRaw 13) with | .ok _ => true | .error _ => false) = true := by decide +kernel
      rw [h] at this; cases this
    | ok ep =>
      have : (match expandEsp .c6 (fun _ => false) (manyRaw 13) with
        | .ok ep => decide ((212, 1, 112) ∈ ep.code.hwHandlers ∧ 212 ∉ ep.enables.map Prod.fst ∧ (212, []) ∈ ep.exports) | .error _ => false) = true := by decide +kernel
      rw [h] at this
      simp only [decide_eq_true_eq] at this
      exact ⟨ep, rfl, this.1, fun q k hm => this.2.1 (List.mem_map.mpr ⟨_, hm, rfl⟩), this.2.2⟩
  · cases h : expandEsp .c3 (fun _ => false) (manyRaw 17) with
    | error e =>
      have : (match expandEsp .c3 (fun _ => false) (manyRaw 17) with | .ok _ => true | .error _ => false) = true := by decide +kernel
      rw [h] at this; cases this
    | ok ep =>
      have : (match expandEsp .c3 (fun _ => false) (manyRaw 17) with
        | .ok ep => decide ((216, 1, 116) ∈ ep.code.hwHandlers ∧ (216, 1, 32) ∈ ep.enables) | .error _ => false) = true := by decide +kernel
      rw [h] at this
      simp only [decide_eq_true_eq] at this
      exact ⟨ep, rfl, this.1, this.2⟩

/-- the example application of the other targets, on the ESP32-C3 -/
theorem exRaw_esp : ∃ ep, expandEsp .c3 (fun i => decide (i = 50 ∨ i = 51)) exRaw = .ok ep ∧ ep.enables = [(50, 1, 16), (51, 3, 17), (60, 2, 18), (61, 2, 19)] ∧
    ep.exports = [(50, [16]), (51, [17]), (60, [18]), (61, [19])] ∧ ep.code = exProg := by
  refine ⟨{ code := exProg, enables := _, exports := _ }, ?_, rfl, rfl, rfl⟩
  decide +kernel

/-! ## C72: SLIC -/

variable {fresh : Nat → Ident} {bk : Bool} {sp : SlicProgram}

/-- the application with the generated dispatchers written out -/
def Raw.withDispatchers (raw : Raw) (ds : List Ident) : Raw := { raw with dispatchers := ds }

theorem taskIs_with {ds : List Ident} {t : Ident} {k : Kind} {q : Nat} {args : List TaskArg} : TaskIs (raw.withDispatchers ds) t k q args ↔ TaskIs raw t k q args := by
  constructor <;> intro h <;> cases h
  · exact .idle (by assumption)
  · exact .hardware (by assumption) (by assumption) (by assumption)
  · exact .software (by assumption) (by assumption) (by assumption)
  · exact .idle (by assumption)
  · exact .hardware (by assumption) (by assumption) (by assumption)
  · exact .software (by assumption) (by assumption) (by assumption)

theorem parseDispatchers_nodup {ds : List Ident} (h : ds.Nodup) : parseDispatchers ds = .ok ds := by
  have key : ∀ (l : List Ident) (m : Map Unit), (m.map Prod.fst ++ l).Nodup →
      l.foldlM (fun (m : Map Unit) i => insertNew .dispatcherTwice m (i, ())) m = .ok (m ++ l.map fun i => (i, ())) := by
    intro l
    induction l with
    | nil => intro m _; simp [List.foldlM]; rfl
    | cons a l ih =>
      intro m hm
      have hna : has m a = false := by
        cases hh : has m a with
        | false => rfl
        | true =>
          exfalso
          unfold has at hh
          obtain ⟨x, hx⟩ := Option.isSome_iff_exists.mp hh
          have := get?_some_mem hx
          rw [List.nodup_append] at hm
          exact hm.2.2 _ (List.mem_map.mpr ⟨_, this, rfl⟩) _ List.mem_cons_self rfl
      rw [List.foldlM_cons, bind_eq (a := m ++ [(a, ())]) (by simp [insertNew, hna])]
      rw [ih _ (by simpa using hm)]
      simp
  unfold parseDispatchers
  rw [bind_eq (key ds [] (by simpa using h))]
  simp [Function.comp_def]
  rfl

theorem parse_with {app : App} {ds : List Ident} (h : parse raw = .ok app) (hd : ds.Nodup) : parse (raw.withDispatchers ds) = .ok { app with dispatchers := ds } := by
  unfold parse at h ⊢
  obtain ⟨ds0, -, h⟩ := bind_ok h
  obtain ⟨s, h2, h⟩ := bind_ok h
  simp only [Raw.withDispatchers]
  rw [bind_eq (parseDispatchers_nodup hd), bind_eq h2]
  split at h
  · split at h
    · cases h
    · split at h
      · cases h
      · rename_i h3 h4
        cases h
        simp [h3, h4]
        rfl
  · cases h

theorem check_with {app : App} {ds : List Ident} (h : check app = .ok ()) (hd : ∀ nt ∈ app.hw, nt.2.binds ∉ ds) : check { app with dispatchers := ds } = .ok () := by
  unfold check at h ⊢
  obtain ⟨⟨⟩, h1, h⟩ := bind_ok h
  obtain ⟨⟨⟩, h2, h⟩ := bind_ok h
  obtain ⟨⟨⟩, h3, h⟩ := bind_ok h
  refine (bind_eq h1 _).trans ((bind_eq h2 _).trans ((bind_eq h3 _).trans ?_))
  exact forM_ok.mpr fun nt hnt => by rw [if_neg (hd nt hnt)]

/-- the generated dispatchers -/
def slicNames (fresh : Nat → Ident) (n : Nat) : List Ident := (List.range n).map fresh

theorem slicNames_nodup (hf : ∀ i j, fresh i = fresh j → i = j) (n : Nat) : (slicNames fresh n).Nodup := by
  unfold slicNames
  rw [List.nodup_iff_pairwise_ne, List.pairwise_map]
  exact List.nodup_range.imp fun hne e => hne (hf _ _ e)

/-- **C72** An application accepted with SLIC has no explicit dispatchers and means the same as the application with exactly the generated dispatchers written out: one for every distinct positive priority of software tasks, no more. So
all theorems about accepted applications (C40–C45, C61) hold of the generated program. (`fresh i` is the identifier `__RTICDispatcher<i>`, which no hardware task may bind.) -/
theorem C72_slic_as_explicit (hf : ∀ i j, fresh i = fresh j → i = j) (hb : ∀ t i q args, ¬ TaskIs raw t (.hardware (fresh i)) q args) (h : expandSlic fresh bk raw = .ok sp) :
    raw.dispatchers = [] ∧ ∃ n, expand .riscv 8 (raw.withDispatchers (slicNames fresh n)) = .ok sp.code ∧
      (∀ ps : List Nat, ps.Nodup → (∀ q, q ∈ ps ↔ 0 < q ∧ ∃ t args, TaskIs raw t .software q args) → ps.length = n) ∧
      (∀ v, v ∈ sp.swi ↔ v ∈ slicNames fresh n ∨ ∃ t q args, TaskIs raw t (.hardware v) q args) ∧ sp.swi.Nodup := by
  unfold expandSlic backSlic at h
  obtain ⟨app, h1, h⟩ := bind_ok h
  obtain ⟨⟨⟩, h2, h⟩ := bind_ok h
  obtain ⟨base, h3, h⟩ := bind_ok h
  obtain ⟨app', hpre, h⟩ := bind_ok h
  obtain ⟨⟨⟩, h4, h⟩ := bind_ok h
  obtain ⟨an, h5, h⟩ := bind_ok h
  obtain ⟨p, h6, h⟩ := bind_ok h
  cases h
  have hs := says_of_parse h1
  unfold slicPreprocess at hpre
  split at hpre
  · cases hpre
  rename_i hnil
  have hnil : app.dispatchers = [] := by simpa using hnil
  cases hpre
  generalize hn : (toSet ((app.sw.map fun nt => nt.2.priority).filter (0 < ·))).length = n at *
  have hnd := slicNames_nodup hf n
  have hbind : ∀ nt ∈ app.hw, nt.2.binds ∉ slicNames fresh n := by
    intro nt hnt hm
    obtain ⟨i, -, hi⟩ := List.mem_map.mp hm
    obtain ⟨args, ha, -⟩ := hs.hw nt.1 nt.2 hnt
    rw [← hi] at ha
    exact hb _ _ _ _ ha
  refine ⟨by rw [← hs.dispatchers, hnil], n, ?_, ?_, ?_, ?_⟩
  · have p1 := parse_with h1 hnd
    have p2 := check_with h2 hbind
    have p3 : analyze { app with dispatchers := slicNames fresh n } = .ok base := h3
    have hs' := says_of_parse p1
    have hlen : (toSet ((app.sw.map fun nt => nt.2.priority).filter (0 < ·))).length ≤ (slicNames fresh n).length := by simp [slicNames, hn]
    have p4 : archCheck .riscv { app with dispatchers := slicNames fresh n } = .ok () := archCheck_riscv hlen
    obtain ⟨-, f2, -⟩ := fullAnalyze_ok hs'.nodupD h5
    have hfit := fits_riscv hs' f2
    unfold expand
    rw [bind_eq p1, bind_eq p2, bind_eq p3, bind_eq p4]
    refine (bind_eq h5 _).trans ((bind_eq h6 _).trans ?_)
    rw [if_pos hfit]; rfl
  · intro ps hps hq
    rw [← hn]
    have hmem : ∀ q, q ∈ toSet ((app.sw.map fun nt => nt.2.priority).filter (0 < ·)) ↔ 0 < q ∧ ∃ t args, TaskIs raw t .software q args := by
      intro q
      simp only [mem_toSet, List.mem_filter, List.mem_map, decide_eq_true_eq]
      constructor
      · rintro ⟨⟨nt, hnt, rfl⟩, h0⟩
        obtain ⟨args, ha, -⟩ := hs.sw _ _ hnt
        exact ⟨h0, _, _, ha⟩
      · rintro ⟨h0, t, args, ha⟩
        obtain ⟨st, hst, rfl⟩ := sw_of_task hs ha
        exact ⟨⟨_, hst, rfl⟩, h0⟩
    apply Nat.le_antisymm
    · exact length_le_of_subset hps fun x hx => (hmem x).mpr ((hq x).mp hx)
    · exact length_le_of_subset nodup_toSet fun x hx => (hq x).mpr ((hmem x).mp hx)
  · intro v
    simp only [slicSwi, List.mem_append, List.mem_map]
    constructor
    · rintro (⟨nt, hnt, rfl⟩ | h)
      · obtain ⟨args, ha, -⟩ := hs.hw _ _ hnt
        exact .inr ⟨_, _, _, ha⟩
      · exact .inl (by simpa [slicNames] using h)
    · rintro (h | ⟨t, q, args, ha⟩)
      · exact .inr (by simpa [slicNames] using h)
      · obtain ⟨_, _, -, ⟨i, hi, rfl, rfl, hk, -⟩ | ⟨x, hx, rfl, hk, -⟩ | ⟨x, hx, rfl, hk, -⟩⟩ := hs.task _ _ _ _ ha
        · cases hk
        · cases hk; exact .inl ⟨_, hx, rfl⟩
        · cases hk
  · simp only [slicSwi]
    rw [List.nodup_append]
    refine ⟨hs.nodupB, hnd, ?_⟩
    intro a ha b hb' e
    subst e
    obtain ⟨nt, hnt, rfl⟩ := List.mem_map.mp ha
    exact hbind nt hnt hb'

theorem fullAnalyze_bug (base : Analysis) (app : App) : Fails (· = .bug) (fullAnalyze base app) := by
  have hpop : ∀ (ps : List Nat) (ds : List Ident), Fails (· = .bug) (popAll ps ds) := by
    intro ps
    induction ps with
    | nil => intro ds; exact fails_ok _
    | cons p ps ih =>
      intro ds
      unfold popAll
      split
      · exact fails_error rfl
      · exact fails_bind (ih _) fun _ _ => fails_pure _
  unfold fullAnalyze
  refine fails_ite (fun _ => fails_error rfl) fun _ => fails_bind (hpop _ _) fun _ _ => ?_
  split
  · exact fails_pure _
  · exact fails_error rfl
  · exact fails_pure _

theorem codegen_bug (tg : Target) (app : App) (an : FullAnalysis) : Fails (· = .bug) (codegen tg app an) := by
  have hsh : ∀ m, Fails (· = .bug) (sharedHandles app m) := by
    intro m
    refine fails_mapM fun _ _ => ?_
    split
    · exact fails_error rfl
    · exact fails_ok _
  have hlo : ∀ m, Fails (· = .bug) (localHandles app m) := by
    intro m
    refine fails_mapM fun _ _ => ?_
    split
    · exact fails_ite (fun _ => fails_ok _) fun _ => fails_error rfl
    · exact fails_ok _
  have hctx : ∀ t q as sh lo, Fails (· = .bug) (context app t q as sh lo) := fun t q as sh lo =>
    fails_bind (hsh _) fun _ _ => fails_bind (hlo _) fun _ _ => fails_pure _
  have hv : ∀ q, Fails (· = .bug) (vectorFor an q) := by
    intro q
    unfold vectorFor
    refine fails_ite (fun _ => ?_) fun _ => fails_ok _
    split
    · exact fails_error rfl
    · exact fails_ok _
  have hopt : ∀ o, Fails (· = .bug) (optCtx app o) := by
    intro o
    cases o with
    | none => exact fails_ok _
    | some i => exact fails_bind (hctx _ _ _ _ _) fun _ _ => fails_pure _
  unfold codegen
  refine fails_bind ?_ fun _ _ => fails_bind (fails_mapM fun _ _ => fails_bind (hv _) fun _ _ => fails_pure _) fun _ _ =>
    fails_bind (fails_mapM fun _ _ => fails_bind (hv _) fun _ _ => fails_pure _) fun _ _ => fails_pure _
  unfold contexts
  exact fails_bind (hopt _) fun _ _ => fails_bind (fails_mapM fun _ _ => hctx _ _ _ _ _) fun _ _ => fails_bind (fails_mapM fun _ _ => hctx _ _ _ _ _) fun _ _ => fails_pure _

/-- **C72** With SLIC there are always enough dispatchers: whatever passes the checks common to all targets is accepted, if no dispatchers are given explicitly (and, with CLINT, the backend is configured); there is no other error, in
particular no internal one. -/
theorem C72_slic_never_too_few (hf : ∀ i j, fresh i = fresh j → i = j) (hb : ∀ t i q args, ¬ TaskIs raw t (.hardware (fresh i)) q args)
    (hd : raw.dispatchers = []) {app : App} (h1 : parse raw = .ok app) (h2 : check app = .ok ()) {base : Analysis} (h3 : analyze app = .ok base) : ∃ sp, expandSlic fresh true raw = .ok sp := by
  have hs := says_of_parse h1
  have hnil : app.dispatchers = [] := by rw [hs.dispatchers, hd]
  unfold expandSlic backSlic
  rw [bind_eq h1, bind_eq h2, bind_eq h3]
  generalize hn : (toSet ((app.sw.map fun nt => nt.2.priority).filter (0 < ·))).length = n at *
  have hpre : slicPreprocess fresh app = .ok { app with dispatchers := slicNames fresh n } := by
    unfold slicPreprocess slicNames
    rw [if_neg (by simp [hnil]), hn]
  rw [bind_eq hpre]
  have hlen : (toSet ((app.sw.map fun nt => nt.2.priority).filter (0 < ·))).length ≤ (slicNames fresh n).length := by simp [slicNames, hn]
  have h4 : archCheckSlic true { app with dispatchers := slicNames fresh n } = .ok () := by
    unfold archCheckSlic
    simp only
    rw [if_neg (by omega)]
    rfl
  rw [bind_eq h4]
  -- the same application with the dispatchers written out has no internal error
  have hbind : ∀ nt ∈ app.hw, nt.2.binds ∉ slicNames fresh n := by
    intro nt hnt hm
    obtain ⟨i, -, hi⟩ := List.mem_map.mp hm
    obtain ⟨args, ha, -⟩ := hs.hw nt.1 nt.2 hnt
    rw [← hi] at ha
    exact hb _ _ _ _ ha
  have hnb := C62_no_internal_panic .riscv 8 (raw.withDispatchers (slicNames fresh n))
  unfold expand at hnb
  rw [bind_eq (parse_with h1 (slicNames_nodup hf n)), bind_eq (check_with h2 hbind),
    bind_eq (show analyze { app with dispatchers := slicNames fresh n } = .ok base from h3), bind_eq (archCheck_riscv (app := { app with dispatchers := slicNames fresh n }) hlen)] at hnb
  cases h5 : fullAnalyze base { app with dispatchers := slicNames fresh n } with
  | error e =>
    rw [h5, fullAnalyze_bug _ _ e h5] at hnb
    exact absurd rfl hnb
  | ok an =>
    rw [bind_eq h5] at hnb
    rw [bind_eq rfl]
    cases h6 : codegen .riscv { app with dispatchers := slicNames fresh n } an with
    | error e =>
      rw [h6, codegen_bug _ _ _ e h6] at hnb
      exact absurd rfl hnb
    | ok p => exact ⟨_, rfl⟩

/-- **C72** Explicit dispatchers are refused with SLIC. -/
theorem C72_slic_explicit_refused (hd : raw.dispatchers ≠ []) : expandSlic fresh bk raw ≠ .ok sp := by
  intro h
  unfold expandSlic backSlic at h
  obtain ⟨app, h1, h⟩ := bind_ok h
  obtain ⟨⟨⟩, h2, h⟩ := bind_ok h
  obtain ⟨base, h3, h⟩ := bind_ok h
  obtain ⟨app', hpre, h⟩ := bind_ok h
  unfold slicPreprocess at hpre
  rw [if_pos (by rw [(says_of_parse h1).dispatchers]; exact hd)] at hpre
  cases hpre

/-- the example application with the dispatchers left out -/
example : ∃ sp, expandSlic (1000 + ·) true (exRaw.withDispatchers []) = .ok sp ∧ sp.swi = [60, 61, 1000, 1001] ∧ sp.code.dispatchers = [(some 1000, 1, [22]), (some 1001, 3, [23, 24])] := by
  cases h : expandSlic (1000 + ·) true (exRaw.withDispatchers []) with
  | error e =>
    have : (match expandSlic (1000 + ·) true (exRaw.withDispatchers []) with | .ok _ => true | .error _ => false) = true := by decide +kernel
    rw [h] at this; cases this
  | ok sp =>
    have : (match expandSlic (1000 + ·) true (exRaw.withDispatchers []) with
      | .ok sp => decide (sp.swi = [60, 61, 1000, 1001] ∧ sp.code.dispatchers = [(some 1000, 1, [22]), (some 1001, 3, [23, 24])]) | .error _ => false) = true := by decide +kernel
    rw [h] at this
    simpa using this

/-- the hypotheses on the generated names are met by it -/
example : (∀ i j : Nat, (1000 + i : Ident) = 1000 + j → i = j) ∧ ∀ t i q args, ¬ TaskIs (exRaw.withDispatchers []) t (.hardware (1000 + i)) q args := by
  refine ⟨fun i j h => by unfold Ident at h; omega, ?_⟩
  intro t i q args h
  cases h with
  | hardware h1 h2 h3 =>
    simp only [Raw.withDispatchers, exRaw, List.mem_cons, List.not_mem_nil, or_false, Item.task.injEq, reduceCtorEq, false_or] at h1
    rcases h1 with h | h | h | h | h <;> (obtain ⟨-, rfl, -⟩ := h; simp at h2)
    all_goals (unfold Ident at h2; omega)

end Verif.Analysis
