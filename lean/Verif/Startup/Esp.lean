import Verif.Startup.Props
import Verif.Analysis.TargetProps

/-!
# Startup on ESP32-C3/C6

The generated `main` (`rtic-macros/src/codegen/main.rs:41-59`, `pre_init.rs:8-26`, `post_init.rs:6-47`, `bindings/esp32c3.rs:85-118`, `bindings/esp32c6.rs:89-122`; the statements are those computed by `Verif.Analysis.espMain`) with the registers of the interrupt matrix that `enable` writes (`rtic/src/export/riscv_esp32c3.rs:132-149`).
A peripheral interrupt is mapped to a CPU interrupt line; a line has a priority and an enable bit; the processor enters the function that is exported under the number of the line (`#[export_name = "interrupt<n>"]`).

Simplifications: those of `Verif.Startup`. After reset no CPU interrupt line is enabled. The three writes of `enable` are two steps (mapping and priority, then the enable bit); they are made with interrupts disabled.
-/

namespace Verif.Startup.Esp

open Verif.Analysis Verif.Startup

/-- third argument of the call of `enable` for `v` -/
def lineOf (ep : EspProgram) (v : Ident) : Option Nat := (ep.enables.find? fun e => e.1 = v).map fun e => e.2.2

structure St where
  /-- rest of `main` -/
  todo : List Stmt
  /-- interrupts disabled -/
  masked : Bool := false
  /-- mapping of peripheral interrupts to CPU interrupt lines; `none`: not written -/
  map : Ident → Option Nat := fun _ => none
  /-- `cpu_int_pri` -/
  pri : Nat → Nat := fun _ => 0
  /-- `cpu_int_enable` -/
  en : Nat → Bool := fun _ => false
  pending : List Ident := []
  /-- `init` is running -/
  inInit : Bool := false
  /-- `init` has returned -/
  initReturned : Bool := false
  wroteShared : List Ident := []
  wroteLocal : List Ident := []
  thread : Thread := .main

inductive Act where
  /-- a peripheral interrupt or software interrupt is asserted -/
  | pend (v : Ident)
  | exec
  | initReturns
  /-- code of task `t` runs, in a handler entered because of interrupt `v`, which is mapped to line `k` (`none`: in thread mode) -/
  | run (t : Ident) (v : Option (Ident × Nat))

/-- effect of a statement of `main`; `enable` is `setPriority` followed by `unmask` -/
def execStmt (ep : EspProgram) (s : St) : Stmt → St
  | .disableInterrupts => { s with masked := true }
  | .setPriority v p => match lineOf ep v with
    | some k => { s with map := fun w => if w = v then some k else s.map w, pri := fun j => if j = k then p else s.pri j }
    | none => s
  | .unmask v => match lineOf ep v with
    | some k => { s with en := fun j => if j = k then true else s.en j }
    | none => s
  | .callInit => { s with inInit := true }
  | .writeShared r => { s with wroteShared := r :: s.wroteShared }
  | .writeLocal r => { s with wroteLocal := r :: s.wroteLocal }
  | .enableInterrupts => { s with masked := false }
  | .callIdle n => { s with thread := .idle n }
  | .zeroDispatcher => { s with thread := .zeroDispatcher }
  | .spin => { s with thread := .spin }

/-- the processor may take interrupt `v` on line `k` -/
def takes (s : St) (v : Ident) (k : Nat) : Prop := s.masked = false ∧ v ∈ s.pending ∧ s.map v = some k ∧ s.en k = true

/-- function `w` is exported as the handler of line `k` -/
def handles (ep : EspProgram) (w : Ident) (k : Nat) : Prop := ∃ ls, (w, ls) ∈ ep.exports ∧ k ∈ ls

inductive Step (ep : EspProgram) (s : St) : Act → St → Prop
  | pend (v) : Step ep s (.pend v) { s with pending := v :: s.pending }
  | exec (st rest) (h : s.todo = st :: rest) (hi : s.inInit = false) : Step ep s .exec (execStmt ep { s with todo := rest } st)
  | initReturns (hi : s.inInit = true) : Step ep s .initReturns { s with inInit := false, initReturned := true }
  /-- the handler of the line is that of a hardware task, `codegen/hardware_tasks.rs:19-50` -/
  | hardware (v k w q t) (ht : takes s v k) (he : handles ep w k) (h : (w, q, t) ∈ ep.code.hwHandlers) : Step ep s (.run t (some (v, k))) s
  /-- it is a dispatcher, which polls a spawned task, `codegen/async_dispatchers.rs:62-81` -/
  | software (v k w q ts t) (ht : takes s v k) (he : handles ep w k) (h : (some w, q, ts) ∈ ep.code.dispatchers) (hm : t ∈ ts) : Step ep s (.run t (some (v, k))) s
  | idle (n) (h : s.thread = .idle n) : Step ep s (.run n none) s
  /-- the priority 0 dispatcher, `codegen/async_dispatchers.rs:82-91` -/
  | zero (q ts t) (h : (none, q, ts) ∈ ep.code.dispatchers) (hm : t ∈ ts) (ht : s.thread = .zeroDispatcher) : Step ep s (.run t none) s

/-- reachable from the entry of `main` -/
inductive Reach (ep : EspProgram) : St → Prop
  | start : Reach ep { todo := ep.code.main }
  | step {s a s'} (h : Reach ep s) (hs : Step ep s a s') : Reach ep s'

/-! ## Proofs -/

def replay (ep : EspProgram) (done : List Stmt) : St := done.foldl (execStmt ep) { todo := [] }

theorem replay_snoc (ep : EspProgram) (done : List Stmt) (x : Stmt) : replay ep (done ++ [x]) = execStmt ep (replay ep done) x := by simp [replay]

theorem snoc_ind {α : Type} {P : List α → Prop} (h0 : P []) (hs : ∀ l x, P l → P (l ++ [x])) : ∀ l, P l := by
  intro l
  generalize hn : l.length = n
  induction n generalizing l with
  | zero => rw [List.length_eq_zero_iff.mp hn]; exact h0
  | succ n ih =>
    have hne : l ≠ [] := by intro e; simp [e] at hn
    obtain ⟨l', x, rfl⟩ : ∃ l' x, l = l' ++ [x] := ⟨_, _, (List.dropLast_concat_getLast hne).symm⟩
    exact hs _ _ (ih l' (by simp at hn; omega))

theorem replay_facts (ep : EspProgram) (done : List Stmt) :
    (∀ r, r ∈ (replay ep done).wroteShared ↔ .writeShared r ∈ done) ∧ (∀ r, r ∈ (replay ep done).wroteLocal ↔ .writeLocal r ∈ done) ∧
    (∀ n, (replay ep done).thread = .idle n → .callIdle n ∈ done) ∧ ((replay ep done).thread = .zeroDispatcher → .zeroDispatcher ∈ done) ∧
    ((replay ep done).masked = false → .enableInterrupts ∈ done ∨ .disableInterrupts ∉ done) := by
  refine snoc_ind (P := fun done => (∀ r, r ∈ (replay ep done).wroteShared ↔ .writeShared r ∈ done) ∧ (∀ r, r ∈ (replay ep done).wroteLocal ↔ .writeLocal r ∈ done) ∧
    (∀ n, (replay ep done).thread = .idle n → .callIdle n ∈ done) ∧ ((replay ep done).thread = .zeroDispatcher → .zeroDispatcher ∈ done) ∧
    ((replay ep done).masked = false → .enableInterrupts ∈ done ∨ .disableInterrupts ∉ done)) (by simp [replay]) ?_ done
  rintro l x ⟨h1, h2, h5, h6, h7⟩
  rw [replay_snoc]
  have hmem : ∀ y, y ∈ l ++ [x] ↔ y ∈ l ∨ y = x := by intro y; simp
  simp only [hmem]
  cases x <;> simp only [execStmt] <;> (try split) <;> refine ⟨?_, ?_, ?_, ?_, ?_⟩ <;> grind

theorem replay_regs (ep : EspProgram) (done : List Stmt) :
    (∀ v k, (replay ep done).map v = some k → lineOf ep v = some k ∧ ∃ q, .setPriority v q ∈ done) ∧
    (∀ v q k, .setPriority v q ∈ done → lineOf ep v = some k → (replay ep done).map v = some k) ∧
    (∀ k, (replay ep done).en k = true ↔ ∃ v, .unmask v ∈ done ∧ lineOf ep v = some k) ∧
    (∀ v q k, .setPriority v q ∈ done → lineOf ep v = some k → (∀ v' q', .setPriority v' q' ∈ done → lineOf ep v' = some k → q' = q) → (replay ep done).pri k = q) := by
  refine snoc_ind (P := fun done => (∀ v k, (replay ep done).map v = some k → lineOf ep v = some k ∧ ∃ q, .setPriority v q ∈ done) ∧
    (∀ v q k, .setPriority v q ∈ done → lineOf ep v = some k → (replay ep done).map v = some k) ∧
    (∀ k, (replay ep done).en k = true ↔ ∃ v, .unmask v ∈ done ∧ lineOf ep v = some k) ∧
    (∀ v q k, .setPriority v q ∈ done → lineOf ep v = some k → (∀ v' q', .setPriority v' q' ∈ done → lineOf ep v' = some k → q' = q) → (replay ep done).pri k = q)) (by simp [replay]) ?_ done
  rintro l x ⟨h1, h2, h3, h4⟩
  rw [replay_snoc]
  have hmem : ∀ y, y ∈ l ++ [x] ↔ y ∈ l ∨ y = x := by intro y; simp
  simp only [hmem]
  cases x <;> simp only [execStmt] <;> (try split) <;> refine ⟨?_, ?_, ?_, ?_⟩ <;> grind

structure Inv (ep : EspProgram) (done : List Stmt) (s : St) : Prop where
  split : ep.code.main = done ++ s.todo
  st : s.masked = (replay ep done).masked ∧ s.map = (replay ep done).map ∧ s.pri = (replay ep done).pri ∧ s.en = (replay ep done).en ∧ s.wroteShared = (replay ep done).wroteShared ∧
    s.wroteLocal = (replay ep done).wroteLocal ∧ s.thread = (replay ep done).thread
  init : s.inInit = true → done.getLast? = some .callInit
  ret : .callInit ∈ done → s.inInit = true ∨ s.initReturned = true

theorem inv_step {ep : EspProgram} {done : List Stmt} {s s' : St} {a : Act} (hi : Inv ep done s) (hs : Step ep s a s') : ∃ done', Inv ep done' s' := by
  cases hs with
  | pend v => exact ⟨done, hi.split, hi.st, hi.init, hi.ret⟩
  | exec st rest h hin =>
    refine ⟨done ++ [st], ?_⟩
    obtain ⟨h1, ⟨e1, e2, e3, e4, e5, e6, e7⟩, h4, h5⟩ := hi
    refine ⟨?_, ?_, ?_, ?_⟩
    · rw [h1, h]; cases st <;> simp only [execStmt] <;> (try split) <;> simp
    · rw [replay_snoc]; cases st <;> simp only [execStmt] <;> (try split) <;> simp [e1, e2, e3, e4, e5, e6, e7]
    · intro hh
      cases st <;> simp only [execStmt, hin] at hh ⊢ <;> (try split at hh) <;> simp_all
    · intro hm
      rcases List.mem_append.mp hm with hm | hm
      · have := h5 hm
        cases st <;> simp only [execStmt] <;> (try split) <;> grind
      · simp at hm; subst hm; simp [execStmt]
  | initReturns hin => exact ⟨done, hi.split, hi.st, by simp, fun _ => .inr rfl⟩
  | hardware => exact ⟨done, hi⟩
  | software => exact ⟨done, hi⟩
  | idle => exact ⟨done, hi⟩
  | zero => exact ⟨done, hi⟩

theorem inv_reach {ep : EspProgram} {s : St} (h : Reach ep s) : ∃ done, Inv ep done s := by
  induction h with
  | start => exact ⟨[], rfl, ⟨rfl, rfl, rfl, rfl, rfl, rfl, rfl⟩, by simp, by simp⟩
  | step _ hs ih => obtain ⟨d, hd⟩ := ih; exact inv_step hd hs

variable {chip : Chip} {fc : Ident → Bool} {raw : Raw} {ep : EspProgram}

/-- the shape of `main` -/
structure Shape (raw : Raw) (ep : EspProgram) (A E : List Stmt) (last : Stmt) : Prop where
  main : ep.code.main = (.disableInterrupts :: A ++ [.callInit] ++ E) ++ .enableInterrupts :: [last]
  pre : ∀ x ∈ A, (∃ v q, x = .setPriority v q) ∨ ∃ v, x = .unmask v
  post : ∀ x ∈ E, (∃ r, x = .writeShared r) ∨ ∃ r, x = .writeLocal r
  last : last = .spin ∨ last = .zeroDispatcher ∨ ∃ n, last = .callIdle n
  prio : ∀ v q, .setPriority v q ∈ A ↔ ∃ k, (v, q, k) ∈ ep.enables
  unmask : ∀ v, .unmask v ∈ A ↔ ∃ q k, (v, q, k) ∈ ep.enables
  shared : ∀ t q r a, UsesShared raw t q r a → .writeShared r ∈ E
  «local» : ∀ t q r, UsesLocal raw t q r → .writeLocal r ∈ E

theorem shape (h : expandEsp chip fc raw = .ok ep) : ∃ A E last, Shape raw ep A E last := by
  obtain ⟨p, app, base, an, hp, he⟩ := expandEsp_ok h
  obtain ⟨s, own, hown, -, hus, hul, -⟩ := analyze_ok he.exp.analyze
  have hs := he.exp.says
  refine ⟨(espEnables chip app an).flatMap fun e => [.setPriority e.1 e.2.1, .unmask e.1], ((app.sharedRes.filter fun kv => decide (kv.1 ∈ an.base.usedShared)).map fun kv => Stmt.writeShared kv.1) ++
    ((app.localRes.filter fun kv => decide (kv.1 ∈ an.base.usedLocal)).map fun kv => Stmt.writeLocal kv.1), lastStmt app, ?_, ?_, ?_, ?_, ?_, ?_, ?_, ?_⟩
  · rw [he.code]; simp [espMain]
  · intro x hx
    simp only [List.mem_flatMap, List.mem_cons, List.not_mem_nil, or_false] at hx
    rcases hx with ⟨e, -, rfl | rfl⟩
    · exact .inl ⟨_, _, rfl⟩
    · exact .inr ⟨_, rfl⟩
  · intro x hx
    simp only [List.mem_append, List.mem_map] at hx
    rcases hx with ⟨kv, -, rfl⟩ | ⟨kv, -, rfl⟩
    · exact .inl ⟨_, rfl⟩
    · exact .inr ⟨_, rfl⟩
  · unfold lastStmt
    split
    · exact .inr (.inr ⟨_, rfl⟩)
    · split
      · exact .inr (.inl rfl)
      · exact .inl rfl
  · intro v q
    rw [he.enables]
    simp only [List.mem_flatMap, List.mem_cons, List.not_mem_nil, or_false, Stmt.setPriority.injEq, reduceCtorEq, Prod.exists]
    constructor
    · rintro ⟨v', q', k, hm, rfl, rfl⟩; exact ⟨k, hm⟩
    · rintro ⟨k, hm⟩; exact ⟨v, q, k, hm, rfl, rfl⟩
  · intro v
    rw [he.enables]
    simp only [List.mem_flatMap, List.mem_cons, List.not_mem_nil, or_false, Stmt.unmask.injEq, reduceCtorEq, false_or, Prod.exists]
    constructor
    · rintro ⟨v', q', k, hm, rfl⟩; exact ⟨q', k, hm⟩
    · rintro ⟨q, k, hm⟩; exact ⟨v, q, k, hm, rfl⟩
  · intro t q r a hu
    obtain ⟨res, hres⟩ := (C45_resources_validated hp).1 _ _ _ _ hu
    refine List.mem_append_left _ (List.mem_map.mpr ⟨(r, res), List.mem_filter.mpr ⟨(hs.sharedRes _ _).mpr hres, ?_⟩, rfl⟩)
    rw [he.exp.anBase, hus, decide_eq_true_eq, hown.used]
    exact ⟨q, a, mem_sharedAccesses.mpr ⟨t, hs.uses.mp hu⟩⟩
  · intro t q r hu
    obtain ⟨ty, hty⟩ := (C45_resources_validated hp).2.1 _ _ _ hu
    refine List.mem_append_right _ (List.mem_map.mpr ⟨(r, ty), List.mem_filter.mpr ⟨(hs.localRes _ _).mpr hty, ?_⟩, rfl⟩)
    rw [he.exp.anBase, hul, decide_eq_true_eq]
    exact List.mem_map.mpr ⟨_, (mem_allLocals hs.initDecl).mpr ⟨t, hs.usesLocal.mp hu⟩, rfl⟩

/-- nothing before the end of `main` enables interrupts or starts the thread -/
theorem Shape.enable_not {A E : List Stmt} {last : Stmt} (h : Shape raw ep A E last) : .enableInterrupts ∉ .disableInterrupts :: A ++ [.callInit] ++ E := by
  intro hh
  simp only [List.mem_append, List.mem_cons, List.not_mem_nil, or_false] at hh
  rcases hh with ((hh | hh) | hh) | hh
  · cases hh
  · rcases h.pre _ hh with ⟨v, q, e⟩ | ⟨v, e⟩ <;> cases e
  · cases hh
  · rcases h.post _ hh with ⟨v, e⟩ | ⟨v, e⟩ <;> cases e

theorem Shape.last_mem {A E : List Stmt} {last x : Stmt} (h : Shape raw ep A E last) (hx : x ∈ ep.code.main) (hk : x = .zeroDispatcher ∨ ∃ n, x = .callIdle n) : x = last := by
  rw [h.main] at hx
  simp only [List.mem_append, List.mem_cons, List.not_mem_nil, or_false] at hx
  rcases hx with (((hh | hh) | hh) | hh) | hh | hh
  · subst hh; simp at hk
  · rcases h.pre _ hh with ⟨v, q, rfl⟩ | ⟨v, rfl⟩ <;> simp at hk
  · subst hh; simp at hk
  · rcases h.post _ hh with ⟨v, rfl⟩ | ⟨v, rfl⟩ <;> simp at hk
  · subst hh; simp at hk
  · exact hh

theorem Shape.callInit_once {A E : List Stmt} {last : Stmt} (h : Shape raw ep A E last) : ep.code.main.count .callInit = 1 := by
  rw [h.main]
  have z1 : A.count .callInit = 0 := List.count_eq_zero.mpr (fun hh => by rcases h.pre _ hh with ⟨v, q, e⟩ | ⟨v, e⟩ <;> cases e)
  have z2 : E.count .callInit = 0 := List.count_eq_zero.mpr (fun hh => by rcases h.post _ hh with ⟨v, e⟩ | ⟨v, e⟩ <;> cases e)
  have z3 : [last].count .callInit = 0 := List.count_eq_zero.mpr (fun hh => by
    have hl := h.last
    simp at hh; subst hh; simp at hl)
  have : (Stmt.disableInterrupts :: A ++ [Stmt.callInit] ++ E ++ Stmt.enableInterrupts :: [last]).count Stmt.callInit
      = A.count .callInit + 1 + E.count .callInit + [last].count .callInit := by
    simp [List.count_append, List.count_cons]; omega
  rw [this, z1, z2, z3]

/-- if interrupts have been enabled, all that comes before has been done -/
theorem Shape.all_before {A E l1 l2 : List Stmt} {last : Stmt} (h : Shape raw ep A E last) (hsp : ep.code.main = l1 ++ l2) (hen : .enableInterrupts ∈ l1) : ∀ x ∈ .disableInterrupts :: A ++ [.callInit] ++ E, x ∈ l1 :=
  prefix_mem (x := .enableInterrupts) (B := [last]) (l2 := l2) (by rw [← hsp, h.main]) h.enable_not hen

/-- `init` does not run when interrupts have been enabled -/
theorem not_inInit {A E done : List Stmt} {last : Stmt} (h : Shape raw ep A E last) {s : St} (hi : Inv ep done s) (hen : .enableInterrupts ∈ done) : s.inInit = false := by
  cases hin : s.inInit
  · rfl
  · exfalso
    obtain ⟨l, hl'⟩ := List.getLast?_eq_some_iff.mp (hi.init hin)
    have hen' : .enableInterrupts ∈ l := by
      rw [hl'] at hen
      rcases List.mem_append.mp hen with h | h
      · exact h
      · simp at h
    have hsp := hi.split
    rw [hl', List.append_assoc] at hsp
    have hc := h.all_before hsp hen' .callInit (by simp)
    have h2 : 2 ≤ ep.code.main.count .callInit := by
      rw [hsp, List.count_append]
      have h1 : 0 < l.count .callInit := List.count_pos_iff.mpr hc
      have h2 : 0 < (([Stmt.callInit] ++ s.todo).count .callInit) := List.count_pos_iff.mpr (by simp)
      omega
    rw [h.callInit_once] at h2
    omega

theorem first_done {A E done : List Stmt} {last : Stmt} (h : Shape raw ep A E last) {s : St} (hi : Inv ep done s) : done = [] ∨ .disableInterrupts ∈ done := by
  have hsplit := hi.split
  cases done with
  | nil => exact .inl rfl
  | cons d done =>
    rw [h.main] at hsplit
    simp only [List.cons_append, List.cons.injEq] at hsplit
    exact .inr (hsplit.1 ▸ List.mem_cons_self)

/-- when a task runs, all of `main` up to and including the enabling of interrupts has been executed -/
theorem run_after_enable {A E : List Stmt} {last : Stmt} (h : Shape raw ep A E last) {s s' : St} (hr : Reach ep s) {t : Ident} {o : Option (Ident × Nat)} (hs : Step ep s (.run t o) s') :
    ∃ done, Inv ep done s ∧ .enableInterrupts ∈ done := by
  obtain ⟨done, hi⟩ := inv_reach hr
  refine ⟨done, hi, ?_⟩
  have hsplit := hi.split
  obtain ⟨-, -, f5, f6, f7⟩ := replay_facts ep done
  obtain ⟨-, -, r3, -⟩ := replay_regs ep done
  obtain ⟨e1, e2, e3, e4, e5, e6, e7⟩ := hi.st
  have htakes : ∀ v k, takes s v k → .enableInterrupts ∈ done := by
    rintro v k ⟨h1, h2, h3, h4⟩
    rw [e4, r3] at h4
    obtain ⟨w, hw, -⟩ := h4
    rw [e1] at h1
    rcases first_done h hi with hd | hd
    · rw [hd] at hw; cases hw
    · rcases f7 h1 with h | h
      · exact h
      · exact absurd hd h
  have hlast : last ∈ done → .enableInterrupts ∈ done := by
    intro hmem
    have hl := h.last
    have hnot : last ∉ ((.disableInterrupts :: A ++ [.callInit] ++ E) ++ [Stmt.enableInterrupts]) := by
      intro hh
      simp only [List.mem_append, List.mem_cons, List.not_mem_nil, or_false] at hh
      rcases hh with (((hh | hh) | hh) | hh) | hh
      · subst hh; simp at hl
      · rcases h.pre _ hh with ⟨v, q, e⟩ | ⟨v, e⟩ <;> subst e <;> simp at hl
      · subst hh; simp at hl
      · rcases h.post _ hh with ⟨v, e⟩ | ⟨v, e⟩ <;> subst e <;> simp at hl
      · subst hh; simp at hl
    refine prefix_mem (A := (.disableInterrupts :: A ++ [.callInit] ++ E) ++ [Stmt.enableInterrupts]) (x := last) (B := []) (l2 := s.todo) ?_ hnot hmem _ (by simp)
    rw [← hsplit, h.main]; simp
  cases hs with
  | hardware v k w q t ht => exact htakes v k ht
  | software v k w q ts t ht => exact htakes v k ht
  | idle n hn =>
    rw [e7] at hn
    have hc := f5 _ hn
    exact hlast (h.last_mem (by rw [hsplit]; exact List.mem_append_left _ hc) (.inr ⟨_, rfl⟩) ▸ hc)
  | zero q ts t _ hm' ht =>
    rw [e7] at ht
    have hc := f6 ht
    exact hlast (h.last_mem (by rw [hsplit]; exact List.mem_append_left _ hc) (.inl rfl) ▸ hc)

/-- **C93** (meaning of the flags) `init` has returned only if it has been called by `main` and returned; a resource has been stored only by the statement of `main` for it. -/
theorem C93_flags_mean {s : St} (hr : Reach ep s) : (s.initReturned = true → ∃ s1 s2, Reach ep s1 ∧ s1.inInit = true ∧ Step ep s1 .initReturns s2) ∧
    (∀ r ∈ s.wroteShared, ∃ s1 s2, Reach ep s1 ∧ s1.todo.head? = some (.writeShared r) ∧ Step ep s1 .exec s2) ∧ ∀ r ∈ s.wroteLocal, ∃ s1 s2, Reach ep s1 ∧ s1.todo.head? = some (.writeLocal r) ∧ Step ep s1 .exec s2 := by
  induction hr with
  | start => refine ⟨?_, ?_, ?_⟩ <;> simp
  | @step s a s' h hs ih =>
    obtain ⟨i1, i2, i3⟩ := ih
    cases hs with
    | exec st rest ht hi =>
      have hx : Step ep s .exec _ := .exec st rest ht hi
      have hd : s.todo.head? = some st := by rw [ht]; rfl
      cases st <;> simp only [execStmt] at hx ⊢
      case setPriority v q => split <;> exact ⟨i1, i2, i3⟩
      case unmask v => split <;> exact ⟨i1, i2, i3⟩
      case writeShared r =>
        refine ⟨i1, fun r' hr' => ?_, i3⟩
        rcases List.mem_cons.mp hr' with rfl | hr'
        · exact ⟨_, _, h, hd, hx⟩
        · exact i2 r' hr'
      case writeLocal r =>
        refine ⟨i1, i2, fun r' hr' => ?_⟩
        rcases List.mem_cons.mp hr' with rfl | hr'
        · exact ⟨_, _, h, hd, hx⟩
        · exact i3 r' hr'
      all_goals exact ⟨i1, i2, i3⟩
    | initReturns hi => exact ⟨fun _ => ⟨_, _, h, hi, .initReturns hi⟩, i2, i3⟩
    | _ => exact ⟨i1, i2, i3⟩

/-- **C93** Whenever code of a task (hardware, software or idle) runs: `init` has returned, and every resource that any task has in its lists has been stored. -/
theorem C93_tasks_run_after_init (h : expandEsp chip fc raw = .ok ep) {s s' : St} (hr : Reach ep s) {t : Ident} {o : Option (Ident × Nat)} (hs : Step ep s (.run t o) s') :
    s.initReturned = true ∧ s.inInit = false ∧ (∀ t' q r a, UsesShared raw t' q r a → r ∈ s.wroteShared) ∧ ∀ t' q r, UsesLocal raw t' q r → r ∈ s.wroteLocal := by
  obtain ⟨A, E, last, hsh⟩ := shape h
  obtain ⟨done, hi, hen⟩ := run_after_enable hsh hr hs
  have hall := hsh.all_before hi.split hen
  obtain ⟨f1, f2, -⟩ := replay_facts ep done
  obtain ⟨e1, e2, e3, e4, e5, e6, e7⟩ := hi.st
  have hni := not_inInit hsh hi hen
  refine ⟨?_, hni, ?_, ?_⟩
  · rcases hi.ret (hall .callInit (by simp)) with h | h
    · rw [hni] at h; cases h
    · exact h
  · intro t' q r a hu
    rw [e5, f1]
    exact hall _ (List.mem_append_right _ (hsh.shared t' q r a hu))
  · intro t' q r hu
    rw [e6, f2]
    exact hall _ (List.mem_append_right _ (hsh.local t' q r hu))

/-- **C93** While `init` runs interrupts are disabled and no code of a task runs. -/
theorem C93_masked_during_init (h : expandEsp chip fc raw = .ok ep) {s : St} (hr : Reach ep s) (hin : s.inInit = true) :
    s.masked = true ∧ ∀ t o s', ¬ Step ep s (.run t o) s' := by
  refine ⟨?_, fun t o s' hs => by rw [(C93_tasks_run_after_init h hr hs).2.1] at hin; cases hin⟩
  obtain ⟨A, E, last, hsh⟩ := shape h
  obtain ⟨done, hi⟩ := inv_reach hr
  obtain ⟨-, -, -, -, f7⟩ := replay_facts ep done
  cases hmk : s.masked
  · exfalso
    rw [hi.st.1] at hmk
    rcases first_done hsh hi with hd | hd
    · have := hi.init hin; rw [hd] at this; cases this
    · rcases f7 hmk with hen | hno
      · have := not_inInit hsh hi hen; rw [hin] at this; cases this
      · exact hno hd
  · rfl

/-- the line of an interrupt is that of its call of `enable` -/
theorem lineOf_eq (h : expandEsp chip fc raw = .ok ep) (hn : ep.code.handlerCount ≤ chip.count) {v : Ident} {q k : Nat} (hm : (v, q, k) ∈ ep.enables) : lineOf ep v = some k := by
  obtain ⟨c1, c2, -⟩ := C70_lines_partial h hn
  obtain ⟨-, -, k0, -, -, hu, -⟩ := c1 v q (c2 v q k hm)
  obtain ⟨-, rfl⟩ := (hu _ _).mp hm
  unfold lineOf
  cases hf : ep.enables.find? (fun e => e.1 = v) with
  | none => have := List.find?_eq_none.mp hf _ hm; simp at this
  | some e =>
    obtain ⟨v', q', k'⟩ := e
    have h2 := List.find?_some hf
    simp only [decide_eq_true_eq] at h2
    subst h2
    obtain ⟨-, rfl⟩ := (hu _ _).mp (List.mem_of_find?_eq_some hf)
    rfl

theorem lineOf_mem {v : Ident} {k : Nat} (h : lineOf ep v = some k) : ∃ q, (v, q, k) ∈ ep.enables := by
  unfold lineOf at h
  simp only [Option.map_eq_some_iff] at h
  obtain ⟨⟨v', q, k'⟩, hf, rfl⟩ := h
  have h2 := List.find?_some hf
  simp only [decide_eq_true_eq] at h2
  subst h2
  exact ⟨q, List.mem_of_find?_eq_some hf⟩

/-- what the registers say about an interrupt that has been enabled, when startup has come to the call of `init` -/
theorem regs_after (h : expandEsp chip fc raw = .ok ep) (hn : ep.code.handlerCount ≤ chip.count) {A E done : List Stmt} {last : Stmt} (hsh : Shape raw ep A E last) (hall : ∀ x ∈ A, x ∈ done) (hsub : ∀ x ∈ done, x ∈ ep.code.main)
    {v : Ident} {q k : Nat} (hm : (v, q, k) ∈ ep.enables) : (replay ep done).map v = some k ∧ (replay ep done).pri k = q ∧ (replay ep done).en k = true := by
  obtain ⟨r1, r2, r3, r4⟩ := replay_regs ep done
  obtain ⟨-, -, c3⟩ := C70_lines_partial h hn
  have hl := lineOf_eq h hn hm
  have hset := hall _ ((hsh.prio v q).mpr ⟨k, hm⟩)
  refine ⟨r2 _ _ _ hset hl, ?_, (r3 k).mpr ⟨v, hall _ ((hsh.unmask v).mpr ⟨q, k, hm⟩), hl⟩⟩
  refine r4 v q k hset hl ?_
  intro v' q' hs' hl'
  have hmain := hsub _ hs'
  have hA : .setPriority v' q' ∈ A := by
    rw [hsh.main] at hmain
    simp only [List.mem_append, List.mem_cons, List.not_mem_nil, or_false] at hmain
    rcases hmain with (((hh | hh) | hh) | hh) | hh | hh
    · cases hh
    · exact hh
    · cases hh
    · rcases hsh.post _ hh with ⟨v, e⟩ | ⟨v, e⟩ <;> cases e
    · cases hh
    · have hl := hsh.last; subst hh; simp at hl
  obtain ⟨k', hm'⟩ := (hsh.prio v' q').mp hA
  have e1 := lineOf_eq h hn hm'
  rw [hl'] at e1
  cases e1
  obtain rfl := c3 _ _ _ _ _ hm hm'
  obtain ⟨c1, c2, -⟩ := C70_lines_partial h hn
  obtain ⟨-, -, k0, -, -, hu, -⟩ := c1 v q (c2 v q k hm)
  exact ((hu _ _).mp hm').1

/-- **C93** (partial: for at most 16 interrupt handlers on the C3, 12 on the C6, see `C70_lines_violated`) When the processor enters a handler because of interrupt `v` on line `k`, then what runs is the hardware task bound to `v`, or a software task polled by the dispatcher `v`, and the priority of the line is that of the task. -/
theorem C93_right_task_partial (h : expandEsp chip fc raw = .ok ep) (hn : ep.code.handlerCount ≤ chip.count) {s s' : St} (hr : Reach ep s) {t v : Ident} {k : Nat} (hs : Step ep s (.run t (some (v, k))) s') :
    (∃ args, TaskIs raw t (.hardware v) (s.pri k) args) ∨ ∃ args ts, TaskIs raw t .software (s.pri k) args ∧ (some v, s.pri k, ts) ∈ ep.code.dispatchers ∧ t ∈ ts := by
  obtain ⟨A, E, last, hsh⟩ := shape h
  obtain ⟨done, hi, hen⟩ := run_after_enable hsh hr hs
  have hall := hsh.all_before hi.split hen
  have hregs : ∀ {v q k}, (v, q, k) ∈ ep.enables → (replay ep done).map v = some k ∧ (replay ep done).pri k = q ∧ (replay ep done).en k = true :=
    regs_after h hn hsh (fun x hx => hall x (by simp [hx])) (fun x hx => by rw [hi.split]; exact List.mem_append_left _ hx)
  obtain ⟨e1, e2, e3, e4, -⟩ := hi.st
  obtain ⟨c1, c2, c3⟩ := C70_lines_partial h hn
  -- the function exported for the line is that of the interrupt
  have key : ∀ w q, takes s v k → handles ep w k → ep.code.handler w q → w = v ∧ q = s.pri k := by
    rintro w q ⟨-, -, hmap, -⟩ ⟨ls, hls, hk⟩ hw
    obtain ⟨-, -, k0, -, -, hu, hx⟩ := c1 w q hw
    have := (hx _).mp hls
    subst this
    obtain rfl := List.mem_singleton.mp hk
    have hmw := (hu q k).mpr ⟨rfl, rfl⟩
    rw [e2] at hmap
    obtain ⟨hl, -⟩ := (replay_regs ep done).1 v k hmap
    obtain ⟨q', hmv⟩ := lineOf_mem hl
    exact ⟨c3 _ _ _ _ _ hmw hmv, by rw [e3]; exact ((hregs hmw).2.1).symm⟩
  obtain ⟨p, app, base, an, hp, he⟩ := expandEsp_ok h
  have hc1 : ep.code.hwHandlers = p.hwHandlers := by rw [he.code]
  have hc2 : ep.code.dispatchers = p.dispatchers := by rw [he.code]
  cases hs with
  | hardware _ _ w q _ ht he' hw =>
    obtain ⟨rfl, rfl⟩ := key w q ht he' (.inl ⟨_, hw⟩)
    rw [hc1] at hw
    exact .inl (((C44_dispatchers_not_hardware hp).1 _ _ _).mp hw)
  | software _ _ w q ts _ ht he' hd hm =>
    obtain ⟨rfl, rfl⟩ := key w q ht he' (.inr ⟨_, hd⟩)
    have hd' := hd
    rw [hc2] at hd'
    have hg := codegen_ok he.exp.codegen
    obtain ⟨hex, rfl, -⟩ := (mem_dispatchers hg).mp hd'
    obtain ⟨args, hta⟩ : ∃ args, TaskIs raw t .software (s.pri k) args := by
      simp only [channelTasks, List.mem_map, List.mem_filter] at hm
      obtain ⟨nt, ⟨hnt, hpr⟩, rfl⟩ := hm
      obtain ⟨args, ht, -⟩ := he.exp.says.sw nt.1 nt.2 hnt
      rw [of_decide_eq_true hpr] at ht
      exact ⟨args, ht⟩
    exact .inr ⟨args, _, hta, hd, hm⟩

/-- **C93** (partial: as above) After startup nothing stands in the way of any task: hardware tasks run when their interrupt, software tasks when the interrupt their `spawn` pends is asserted, on a line that has the priority of the task; `idle`, or the software tasks of priority 0, run in the thread. -/
theorem C93_every_task_runs_partial (h : expandEsp chip fc raw = .ok ep) (hn : ep.code.handlerCount ≤ chip.count) {s : St} (hr : Reach ep s) (hdone : s.todo = []) {t : Ident} {kd : Kind} {q : Nat} {args : List TaskArg} (ht : TaskIs raw t kd q args) :
    (∀ v, kd = .hardware v → ∃ k, s.pri k = q ∧ (v ∈ s.pending → Step ep s (.run t (some (v, k))) s)) ∧ (kd = .idle → Step ep s (.run t none) s) ∧
    (kd = .software → ∃ o, (t, o) ∈ ep.code.pends ∧ ((o = none ∧ q = 0 ∧ Step ep s (.run t none) s) ∨ ∃ v k, o = some v ∧ 0 < q ∧ s.pri k = q ∧ (v ∈ s.pending → Step ep s (.run t (some (v, k))) s))) := by
  obtain ⟨A, E, last, hsh⟩ := shape h
  obtain ⟨done, hi⟩ := inv_reach hr
  have hd : done = ep.code.main := by rw [hi.split, hdone]; simp
  obtain ⟨e1, e2, e3, e4, -, -, e7⟩ := hi.st
  obtain ⟨c1, -, -⟩ := C70_lines_partial h hn
  have hregs : ∀ {v q k}, (v, q, k) ∈ ep.enables → (replay ep done).map v = some k ∧ (replay ep done).pri k = q ∧ (replay ep done).en k = true :=
    regs_after h hn hsh (fun x hx => by rw [hd, hsh.main]; simp [hx]) (fun x hx => by rw [hi.split]; exact List.mem_append_left _ hx)
  have hmask : s.masked = false := by
    rw [e1, hd, hsh.main]
    have : replay ep ((.disableInterrupts :: A ++ [.callInit] ++ E) ++ .enableInterrupts :: [last])
        = execStmt ep (execStmt ep (replay ep (.disableInterrupts :: A ++ [.callInit] ++ E)) .enableInterrupts) last := by simp [replay]
    rw [this]
    rcases hsh.last with rfl | rfl | ⟨n, rfl⟩ <;> rfl
  have hline : ∀ v q, ep.code.handler v q → ∃ k, s.pri k = q ∧ handles ep v k ∧ (v ∈ s.pending → takes s v k) := by
    intro v q hv
    obtain ⟨-, -, k, -, -, hu, hx⟩ := c1 v q hv
    obtain ⟨g1, g2, g3⟩ := hregs ((hu q k).mpr ⟨rfl, rfl⟩)
    exact ⟨k, by rw [e3]; exact g2, ⟨_, (hx _).mpr rfl, List.mem_singleton_self _⟩, fun hp => ⟨hmask, hp, by rw [e2]; exact g1, by rw [e4]; exact g3⟩⟩
  obtain ⟨p, app, base, an, hp, he⟩ := expandEsp_ok h
  have hc1 : ep.code.hwHandlers = p.hwHandlers := by rw [he.code]
  have hc2 : ep.code.dispatchers = p.dispatchers := by rw [he.code]
  have hc3 : ep.code.pends = p.pends := by rw [he.code]
  have hthread : s.thread = (replay ep ((.disableInterrupts :: A ++ [.callInit] ++ E) ++ .enableInterrupts :: [last])).thread := by rw [e7, hd, hsh.main]
  have hlast : last = lastStmt app := by
    have h1 : ep.code.main = (.disableInterrupts :: A ++ [.callInit] ++ E ++ [.enableInterrupts]) ++ [last] := by rw [hsh.main]; simp
    obtain ⟨l, h2⟩ : ∃ l, ep.code.main = l ++ [lastStmt app] := ⟨_, by rw [he.code]; rfl⟩
    have h3 := (List.append_inj_right' (h1.symm.trans h2) rfl)
    exact (List.cons.inj h3).1
  have hthread : s.thread = (execStmt ep { todo := [] } (lastStmt app)).thread := by
    rw [hthread, show (.disableInterrupts :: A ++ [.callInit] ++ E) ++ .enableInterrupts :: [last] = ((.disableInterrupts :: A ++ [.callInit] ++ E) ++ [.enableInterrupts]) ++ [last] by simp, replay_snoc, hlast]
    have := hsh.last
    rw [hlast] at this
    rcases this with e | e | ⟨n, e⟩ <;> rw [e] <;> rfl
  have hs := he.exp.says
  refine ⟨?_, ?_, ?_⟩
  · rintro v rfl
    have hh : (v, q, t) ∈ ep.code.hwHandlers := by rw [hc1]; exact ((C44_dispatchers_not_hardware hp).1 _ _ _).mpr ⟨_, ht⟩
    obtain ⟨k, g1, g2, g3⟩ := hline v q (.inl ⟨_, hh⟩)
    exact ⟨k, g1, fun hpd => .hardware v k v q t (g3 hpd) g2 hh⟩
  · rintro rfl
    refine .idle _ ?_
    obtain ⟨sh, lo, -, hk⟩ := hs.task _ _ _ _ ht
    rcases hk with ⟨i, h1, rfl, -⟩ | ⟨i, -, -, h3, -⟩ | ⟨i, -, -, h3, -⟩
    · rw [hthread]; simp only [lastStmt, h1, execStmt]
    · cases h3
    · cases h3
  · rintro rfl
    obtain ⟨o, ts, hm, hts, hpd, -⟩ := C44_task_polled_by_own_dispatcher hp ht
    refine ⟨o, by rw [hc3]; exact (hpd o).mpr rfl, ?_⟩
    cases o with
    | none =>
      obtain rfl := (C44_one_dispatcher_per_priority hp).2.2.2.2 _ _ hm
      refine .inl ⟨rfl, rfl, .zero _ _ _ (by rw [hc2]; exact hm) hts ?_⟩
      have hz := ((C84_accepted_iff _ _ _).mp ⟨p, hp⟩).uses.zero
      rw [hthread]
      cases hid : app.idle with
      | some i => obtain ⟨args', hi', -⟩ := hs.idle i hid; exact absurd hi' (hz _ _ _ _ _ ht)
      | none =>
        obtain ⟨sh, lo, -, hk⟩ := hs.task _ _ _ _ ht
        rcases hk with ⟨i, -, -, -, h3, -⟩ | ⟨i, -, -, h3, -⟩ | ⟨i, h1, h2, -⟩
        · cases h3
        · cases h3
        · have : (app.sw.any fun nt => nt.2.priority = 0) = true := List.any_eq_true.mpr ⟨_, h1, by simp [← h2]⟩
          simp only [lastStmt, hid, this, execStmt, if_true]
    | some v =>
      have hm' : (some v, q, ts) ∈ ep.code.dispatchers := by rw [hc2]; exact hm
      obtain ⟨k, g1, g2, g3⟩ := hline v q (.inr ⟨_, hm'⟩)
      exact .inr ⟨v, k, rfl, ((C44_one_dispatcher_per_priority hp).2.2.2.1 _ _ _ hm).2, g1, fun hpd' => .software v k v q ts t (g3 hpd') g2 hm' hts⟩

/-! ### A task that never runs -/

/-- the handlers of a line, computed -/
theorem many13 : ∃ ep, expandEsp .c6 (fun _ => false) (manyRaw 13) = .ok ep ∧ (212, 1, 112) ∈ ep.code.hwHandlers ∧ (∀ w q, (w, q, 112) ∈ ep.code.hwHandlers → w = 212) ∧ (∀ ls, (212, ls) ∈ ep.exports → ls = []) ∧
    ep.code.dispatchers = [] ∧ .callIdle 112 ∉ ep.code.main := by
  cases h : expandEsp .c6 (fun _ => false) (manyRaw 13) with
  | error e =>
    have : (match expandEsp .c6 (fun _ => false) (manyRaw 13) with | .ok _ => true | .error _ => false) = true := by decide +kernel
    rw [h] at this; cases this
  | ok ep =>
    have : (match expandEsp .c6 (fun _ => false) (manyRaw 13) with
      | .ok ep => decide ((212, 1, 112) ∈ ep.code.hwHandlers) && ep.code.hwHandlers.all (fun x => decide (x.2.2 = 112 → x.1 = 212)) && ep.exports.all (fun x => decide (x.1 = 212 → x.2 = [])) && decide (ep.code.dispatchers = [] ∧ Stmt.callIdle 112 ∉ ep.code.main) | .error _ => false) = true := by decide +kernel
    rw [h] at this
    simp only [Bool.and_eq_true, decide_eq_true_eq, List.all_eq_true] at this
    obtain ⟨⟨⟨h1, h2⟩, h3⟩, h4, h5⟩ := this
    exact ⟨ep, rfl, h1, fun w q hm => h2 _ hm rfl, fun ls hm => h3 _ hm rfl, h4, h5⟩

/-- **C93** violated: with 13 hardware tasks the application is accepted for the ESP32-C6, but the last task does not run, in no execution, however often its interrupt is asserted. -/
theorem C93_task_never_runs_violated : ∃ ep, expandEsp .c6 (fun _ => false) (manyRaw 13) = .ok ep ∧ (∃ args, TaskIs (manyRaw 13) 112 (.hardware 212) 1 args) ∧ ∀ s o s', Reach ep s → ¬ Step ep s (.run 112 o) s' := by
  obtain ⟨ep, h, h1, h2, h3, h4, h5⟩ := many13
  refine ⟨ep, h, ?_, ?_⟩
  · obtain ⟨p, app, base, an, hp, he⟩ := expandEsp_ok h
    have hc1 : ep.code.hwHandlers = p.hwHandlers := by rw [he.code]
    rw [hc1] at h1
    exact ((C44_dispatchers_not_hardware hp).1 _ _ _).mp h1
  · intro s o s' hr hs
    cases hs with
    | hardware v k w q _ ht he hw =>
      obtain rfl := h2 _ _ hw
      obtain ⟨ls, hl, hk⟩ := he
      rw [h3 ls hl] at hk; cases hk
    | software v k w q ts _ ht he hd => rw [h4] at hd; cases hd
    | zero q ts _ hd => rw [h4] at hd; cases hd
    | idle _ ht =>
      obtain ⟨done, hi⟩ := inv_reach hr
      rw [hi.st.2.2.2.2.2.2] at ht
      have := (replay_facts ep done).2.2.1 _ ht
      exact h5 (by rw [hi.split]; exact List.mem_append_left _ this)

/-! ### Example: the application `exRaw` on an ESP32-C3 -/

/-- executes all of `main`, `init` returning at once -/
def runMain (ep : EspProgram) : Nat → St → St
  | 0, s => s
  | n + 1, s => match s.todo with
    | [] => s
    | st :: rest => if s.inInit then runMain ep n { s with inInit := false, initReturned := true } else runMain ep n (execStmt ep { s with todo := rest } st)

theorem runMain_reach {ep : EspProgram} : ∀ n {s : St}, Reach ep s → Reach ep (runMain ep n s)
  | 0, s, h => h
  | n + 1, s, h => by
    simp only [runMain]
    split
    · exact h
    · next st rest ht =>
      split
      · next hi => exact runMain_reach n (h.step (.initReturns hi))
      · next hi => exact runMain_reach n (h.step (.exec st rest ht (by simpa using hi)))

/-- the hypotheses are met: interrupt 60 is asserted before the first statement of `main`; its task 20 runs on line 18 after startup, when the thread is in `idle` -/
example : ∃ ep s, expandEsp .c3 (fun i => decide (i = 50 ∨ i = 51)) exRaw = .ok ep ∧ ep.code.handlerCount ≤ Chip.count .c3 ∧ Reach ep s ∧ s.todo = [] ∧ Step ep s (.run 20 (some (60, 18))) s ∧ s.pri 18 = 2 ∧ s.thread = .idle 4 := by
  obtain ⟨ep, h, h1, h2, h3⟩ := exRaw_esp
  obtain ⟨c, en, ex⟩ := ep
  simp only at h1 h2 h3
  subst h1 h2 h3
  refine ⟨_, runMain _ 40 { todo := exProg.main, pending := [60] }, h, by decide +kernel, runMain_reach _ (Reach.start.step (.pend 60)), by decide +kernel, ?_, by decide +kernel, by decide +kernel⟩
  exact .hardware 60 18 60 2 20 ⟨by decide +kernel, by decide +kernel, by decide +kernel, by decide +kernel⟩ ⟨[18], by decide +kernel, by decide⟩ (by decide +kernel)

end Verif.Startup.Esp
