import Verif.EndToEnd.Blocking
import Verif.EndToEnd.Esp

/-!
# One stack suffices (C87)

How many handlers can be active at once, and how much stack they need together.
-/

namespace Verif.EndToEnd

open Verif.Analysis

/-! ## Specification -/

/-- `ps` contains all priorities of tasks (other than 0) -/
def Covers (raw : Raw) (ps : List Nat) : Prop := ∀ t k q args, TaskIs raw t k q args → q = 0 ∨ q ∈ ps

/-- An active handler needs at most `need q` of stack when it executes a task of priority `q`, and the thread at most `need 0`. -/
def WithinNeed (raw : Raw) (p : Program) (use need : Nat → Nat) (n : Nat) : Prop :=
  (n = 0 ∧ use n ≤ need 0) ∨ ∃ t k q args, Runs p n t ∧ TaskIs raw t k q args ∧ use n ≤ need q

end Verif.EndToEnd

namespace Verif.Srp
/-- handlers that have been started and have not returned, innermost first -/
def started (stack : List Rec) : List Nat := stack.filterMap fun | .enter t | .body t _ | .leave t => some t | _ => none
end Verif.Srp

namespace Verif.SourceMask
/-- handlers that have been started and have not returned, innermost first -/
def started (stack : List Rec) : List Nat := stack.filterMap fun | .body t => some t | _ => none
end Verif.SourceMask

namespace Verif.Esp32
/-- handlers that have been started and have not returned, innermost first -/
def started (stack : List Rec) : List Nat := stack.filterMap fun | .enter t _ | .body t _ _ | .leave t _ => some t | _ => none
/-- those of them that have not finished their task -/
def running (stack : List Rec) : List Nat := stack.filterMap fun | .enter t _ | .body t _ _ => some t | _ => none
end Verif.Esp32

namespace Verif.EndToEnd

open Verif.Analysis

/-! ## Lists -/

theorem pairwise_of_splits {α : Type} {f : α → Option Nat} {R : Nat → Nat → Prop} {l : List α}
    (h : ∀ above x below y n m, l = above ++ x :: below → f x = some n → y ∈ below → f y = some m → R n m) : (l.filterMap f).Pairwise R := by
  rw [List.pairwise_filterMap]
  induction l with
  | nil => exact .nil
  | cons a l ih =>
    rw [List.pairwise_cons]
    refine ⟨fun y hy n hn m hm => h [] a l y n m rfl hn hy hm, ih fun above x below y n m he => h (a :: above) x below y n m (by rw [he]; rfl)⟩

theorem sum_le {prio use need : Nat → Nat} {l ps : List Nat} (hl : l.Pairwise fun a b => prio b < prio a) (hp : ∀ n ∈ l, prio n ∈ ps) (hu : ∀ n ∈ l, use n ≤ need (prio n)) :
    (l.map use).sum ≤ (ps.map need).sum ∧ l.length ≤ ps.length := by
  induction l generalizing ps with
  | nil => simp
  | cons a l ih =>
    rw [List.pairwise_cons] at hl
    have ha := hp a (.head _)
    obtain ⟨i1, i2⟩ := ih (ps := ps.erase (prio a)) hl.2 (fun n hn => (List.mem_erase_of_ne (by have := hl.1 n hn; omega)).mpr (hp n (.tail _ hn))) (fun n hn => hu n (.tail _ hn))
    have hperm := List.perm_cons_erase ha
    have e1 := (hperm.map need).sum_nat
    have e2 := hperm.length_eq
    have := hu a (.head _)
    simp only [List.map_cons, List.sum_cons, List.length_cons] at *
    omega

variable {tg : Target} {bits : Nat} {raw : Raw} {p : Program}

/-- a handler without tasks has priority 0 (and never starts) -/
theorem runs_or_zero (h : expand tg bits raw = .ok p) (n : Nat) : handlerPrio p n = 0 ∨ ∃ t, Runs p n t := by
  cases n with
  | zero => exact .inl rfl
  | succ v =>
    show vecPrio p v = 0 ∨ _
    unfold vecPrio
    split
    next x hx =>
      have hm := List.mem_of_find?_eq_some hx
      have hv := List.find?_some hx
      simp only [decide_eq_true_eq] at hv
      obtain ⟨v', q, t⟩ := x
      cases hv
      exact .inr ⟨t, .inl ⟨q, hm⟩⟩
    · split
      next x hx =>
        have hm := List.mem_of_find?_eq_some hx
        have hv := List.find?_some hx
        simp only [decide_eq_true_eq] at hv
        obtain ⟨o, q, ts⟩ := x
        cases hv
        obtain ⟨app, base, an, he⟩ := expand_ok h
        obtain ⟨⟨nt, hnt, hq⟩, hts, -⟩ := (mem_dispatchers (codegen_ok he.codegen)).mp hm
        refine .inr ⟨nt.1, .inr ⟨q, ts, hm, ?_⟩⟩
        rw [hts]
        exact List.mem_map.mpr ⟨nt, List.mem_filter.mpr ⟨hnt, by simpa using hq⟩, rfl⟩
      · exact .inl rfl

theorem prio_mem (h : expand tg bits raw = .ok p) {ps : List Nat} (hc : Covers raw ps) (n : Nat) : handlerPrio p n ∈ 0 :: ps := by
  rcases runs_or_zero h n with h0 | ⟨t, ht⟩
  · rw [h0]; exact .head _
  · obtain ⟨k, args, hT⟩ := runs_prio h ht
    rcases hc _ _ _ _ hT with h0 | h0
    · rw [h0]; exact .head _
    · exact .tail _ h0

theorem within (h : expand tg bits raw = .ok p) {use need : Nat → Nat} {n : Nat} (hw : WithinNeed raw p use need n) : use n ≤ need (handlerPrio p n) := by
  rcases hw with ⟨rfl, h0⟩ | ⟨t, k, q, args, hr, ht, hu⟩
  · exact h0
  · obtain ⟨k', args', hT⟩ := runs_prio h hr
    rw [← (task_unique h ht hT).2]; exact hu

/-! ## BASEPRI -/

theorem started_basepri {c : Srp.Cfg} (hwf : Srp.WellFormed c) {idle : Nat} (hidle : c.prio idle = 0) {as : List Srp.Act} {s : Srp.St} (hx : Srp.Exec c (Srp.start idle) as s) :
    (Srp.started s.stack).Pairwise fun a b => c.prio b < c.prio a := by
  have act : ∀ {x : Srp.Rec} {n : Nat}, (match x with | .enter t | .body t _ | .leave t => some t | _ => none) = some n → Srp.ActivationOf n x := by
    intro x n h
    cases x <;> first | (cases h; rfl) | (cases h; done)
  exact pairwise_of_splits fun above x below y n m he hn hy hm => Srp.C52_running_is_highest hwf hidle hx he (act hn) hy (act hm)

/-- C87 (BASEPRI). In every state of every execution of an accepted application, the active handlers, innermost first, have strictly falling priorities. There are no more of them than the thread and one per priority, and the
stack they need is at most what the thread needs plus, for each priority, what the most demanding task of this priority needs. -/
theorem C87_stack_bounded (h : expand tg bits raw = .ok p) (hb : bits ≤ 7) (hcol : NoCollision raw) {as : List Srp.Act} {s : Srp.St} (hx : Srp.Exec (appCfg bits p) (Srp.start 0) as s) :
    (Srp.started s.stack).Pairwise (fun a b => handlerPrio p b < handlerPrio p a) ∧
    ∀ ps, Covers raw ps → (Srp.started s.stack).length ≤ 1 + ps.length ∧
      ∀ use need, (∀ n ∈ Srp.started s.stack, WithinNeed raw p use need n) → ((Srp.started s.stack).map use).sum ≤ need 0 + (ps.map need).sum := by
  have hpw := started_basepri (appCfg_wellFormed h hb hcol) (idle := 0) rfl hx
  refine ⟨hpw, fun ps hc => ⟨?_, fun use need hw => ?_⟩⟩
  · have := (sum_le (prio := handlerPrio p) (use := fun _ => 0) (need := fun _ => 0) (ps := 0 :: ps) hpw (fun n _ => prio_mem h hc n) (fun _ _ => Nat.le_refl _)).2
    simp only [List.length_cons] at this; omega
  · have := (sum_le (use := use) (need := need) (ps := 0 :: ps) hpw (fun n _ => prio_mem h hc n) (fun n hn => within h (hw n hn))).1
    simpa using this

theorem exRaw_covers : Covers exRaw [1, 2, 3] := by
  intro t k q args ht
  cases ht <;> rename_i hm <;> simp [exRaw, HasPriority] at * <;> grind

/-- the bound on the number is attained: in the example, idle, the dispatcher of priority 1, the hardware task 20 of priority 2 and the dispatcher of priority 3 -/
example : ∃ as s, Srp.Exec (appCfg 4 exProg) (Srp.start 0) as s ∧ Srp.started s.stack = [52, 61, 51, 0] ∧ Runs exProg 52 23 ∧ Runs exProg 61 20 ∧ Runs exProg 51 22 ∧ Runs exProg 0 4 := by
  refine ⟨[] ++ [.irq 51] ++ [.irq 61] ++ [.irq 52], ⟨[.enter 52, .enter 61, .enter 51, .body 0 none], 0, false⟩, ?_, rfl, ?_, ?_, ?_, ?_⟩
  · exact .snoc (.snoc (.snoc (.nil _) (.irq 51 0 rfl (by decide) (by decide))) (.irq 61 51 rfl (by decide) (by decide))) (.irq 52 61 rfl (by decide) (by decide))
  · exact .inr ⟨3, [23, 24], by decide, by decide⟩
  · exact .inl ⟨2, by decide⟩
  · exact .inr ⟨1, [22], by decide, by decide⟩
  · exact .inl (by decide)

/-! ## Interrupt masks -/

/-- C87 (targets without BASEPRI). The same. -/
theorem C87_mask_stack_bounded (h : expand tg bits raw = .ok p) (hcol : NoCollision raw) {num : Ident → Nat} {e0 : SourceMask.Regs} {as : List SourceMask.Act} {s : SourceMask.St}
    (hx : SourceMask.Exec (maskCfg tg num p) (SourceMask.start 0 e0) as s) :
    (SourceMask.started s.stack).Pairwise (fun a b => handlerPrio p b < handlerPrio p a) ∧
    ∀ ps, Covers raw ps → (SourceMask.started s.stack).length ≤ 1 + ps.length ∧
      ∀ use need, (∀ n ∈ SourceMask.started s.stack, WithinNeed raw p use need n) → ((SourceMask.started s.stack).map use).sum ≤ need 0 + (ps.map need).sum := by
  have hpw : (SourceMask.started s.stack).Pairwise (fun a b => handlerPrio p b < handlerPrio p a) := by
    have act : ∀ {x : SourceMask.Rec} {n : Nat}, (match x with | .body t => some t | _ => none) = some n → SourceMask.ActivationOf n x := by
      intro x n h
      cases x <;> first | (cases h; rfl) | (cases h; done)
    exact pairwise_of_splits fun above x below y n m he hn hy hm => SourceMask.C52_mask_running_is_highest (maskCfg_wellFormed h hcol num) (idle := 0) rfl hx he (act hn) hy (act hm)
  refine ⟨hpw, fun ps hc => ⟨?_, fun use need hw => ?_⟩⟩
  · have := (sum_le (prio := handlerPrio p) (use := fun _ => 0) (need := fun _ => 0) (ps := 0 :: ps) hpw (fun n _ => prio_mem h hc n) (fun _ _ => Nat.le_refl _)).2
    simp only [List.length_cons] at this; omega
  · have := (sum_le (use := use) (need := need) (ps := 0 :: ps) hpw (fun n _ => prio_mem h hc n) (fun n hn => within h (hw n hn))).1
    simpa using this

/-! ## ESP32 -/

/-- C87 (ESP32; partial: of handlers that have finished their task but not returned to what they interrupted there may be any number, see `C87_esp_violated`). The handlers that are executing a task have strictly falling
priorities; there are at most as many as priorities and the thread, with the same bound on their stack. -/
theorem C87_esp_stack_partial {chip : Chip} {fc : Ident → Bool} {ep : EspProgram} (h : expandEsp chip fc raw = .ok ep) (hn : ep.code.handlerCount ≤ chip.count) (hcol : NoCollision raw)
    {t0 : Nat} {as : List Esp32.Act} {s : Esp32.St} (hx : Esp32.Exec (espCfg ep) (Esp32.start 0 t0) as s) :
    (Esp32.running s.stack).Pairwise (fun a b => espPrio ep b < espPrio ep a) ∧
    ∀ ps, Covers raw ps → (Esp32.running s.stack).length ≤ 1 + ps.length ∧
      ∀ use need, (∀ n ∈ Esp32.running s.stack, WithinNeed raw ep.code use need n) → ((Esp32.running s.stack).map use).sum ≤ need 0 + (ps.map need).sum := by
  obtain ⟨p, app, base, an, hp, he⟩ := expandEsp_ok h
  have hpw : (Esp32.running s.stack).Pairwise (fun a b => espPrio ep b < espPrio ep a) := by
    have act : ∀ {x : Esp32.Rec} {n : Nat}, (match x with | .enter t _ | .body t _ _ => some t | _ => none) = some n → Esp32.ActivationOf n x ∧ Esp32.RunningOf n x := by
      intro x n h
      cases x <;> first | (cases h; exact ⟨rfl, rfl⟩) | (cases h; done)
    exact pairwise_of_splits fun above x below y n m he hn' hy hm => Esp32.C52_esp_running_is_highest (espCfg_wellFormed h hn hcol) (idle := 0) rfl hx he (act hn').1 hy (act hm).2
  have hmem : ∀ {ps}, Covers raw ps → ∀ n, espPrio ep n ∈ 0 :: ps := by
    intro ps hc n
    rcases runs_or_zero hp n with h0 | ⟨t, ht⟩
    · have := espPrio_le hp he n
      rw [show espPrio ep n = 0 by omega]; exact .head _
    · rw [espPrio_eq h hn hp he ht]; exact prio_mem hp hc n
  refine ⟨hpw, fun ps hc => ⟨?_, fun use need hw => ?_⟩⟩
  · have := (sum_le (prio := espPrio ep) (use := fun _ => 0) (need := fun _ => 0) (ps := 0 :: ps) hpw (fun n _ => hmem hc n) (fun _ _ => Nat.le_refl _)).2
    simp only [List.length_cons] at this; omega
  · have := (sum_le (use := use) (need := need) (ps := 0 :: ps) hpw (fun n _ => hmem hc n) (fun n hn' => by
      rcases hw n hn' with ⟨rfl, h0⟩ | ⟨t, k, q, args, hr, ht, hu⟩
      · exact h0
      · have hr := (runs_code he).mp hr
        obtain ⟨k', args', hT⟩ := runs_prio hp hr
        rw [espPrio_eq h hn hp he hr, ← (task_unique hp ht hT).2]; exact hu)).1
    simpa using this

/-- one handler of priority 1 -/
def onceRaw : Raw := { dispatchers := [], items := [.sharedStruct 1 [], .localStruct 2 [], .init 3 [] true 1 2, .task 20 [.binds 60, .priority 1] false [] true] }

def onceProg : EspProgram := (expandEsp .c3 (fun _ => false) onceRaw).toOption.getD { code := exProg, enables := [], exports := [] }

theorem onceRaw_accepted : expandEsp .c3 (fun _ => false) onceRaw = .ok onceProg := by decide +kernel

/-- The application never nests handlers while they execute their task, and yet any number can be active: for each `k` there is an execution in which `k` activations of the only handler have finished their task and none has returned. -/
theorem C87_esp_violated : NoCollision onceRaw ∧ Covers onceRaw [1] ∧ onceProg.code.handlerCount ≤ Chip.c3.count ∧ Runs onceProg.code 61 20 ∧
    ∀ k, ∃ as s, Esp32.Exec (espCfg onceProg) (Esp32.start 0 0) as s ∧ Esp32.started s.stack = List.replicate k 61 ++ [0] ∧ Esp32.running s.stack = [0] := by
  have hprio : espPrio onceProg 61 = 1 := by decide +kernel
  refine ⟨?_, ?_, by decide +kernel, .inl ⟨1, by decide +kernel⟩, fun k => ?_⟩
  · intro t q x r hl hf
    exact absurd hf (by simp [SharedField, onceRaw])
  · intro t k q args ht
    cases ht <;> rename_i hm <;> simp [onceRaw, HasPriority] at * <;> grind
  · suffices h : ∃ as s, Esp32.Exec (espCfg onceProg) (Esp32.start 0 0) as s ∧ Esp32.started s.stack = List.replicate k 61 ++ [0] ∧ Esp32.running s.stack = [0] ∧ s.off = false ∧ s.thr ≤ 1 by
      obtain ⟨as, s, h1, h2, h3, -⟩ := h
      exact ⟨as, s, h1, h2, h3⟩
    induction k with
    | zero => exact ⟨_, _, .nil _, rfl, rfl, rfl, by decide⟩
    | succ k ih =>
      obtain ⟨as, s, hx, h1, h2, h3, h4⟩ := ih
      have s1 := Esp32.Exec.snoc hx (.irq (c := espCfg onceProg) 61 (by show 1 ≤ espPrio onceProg 61; omega) h3 (by show s.thr ≤ espPrio onceProg 61; omega))
      have s2 := Esp32.Exec.snoc s1 (.readInitial 61 _ _ rfl)
      have hn : (if (espCfg onceProg).prio 61 = 1 then none else some (espPrio onceProg 61 + 1)) = none := if_pos hprio
      have s3 := Esp32.Exec.snoc s2 (.finish1 61 s.thr s.stack (by show _ :: _ = _; simp only [espCfg, hprio, if_true]) (by show 1 ≤ espPrio onceProg 61; omega))
      refine ⟨_, _, s3, ?_, ?_, h3, Nat.le_refl _⟩
      · show 61 :: Esp32.started s.stack = _
        rw [h1]; rfl
      · exact h2

end Verif.EndToEnd
