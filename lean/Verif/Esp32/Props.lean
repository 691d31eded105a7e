import Verif.Esp32.Model

/-!
# C51, C47 (ESP32)
-/

namespace Verif.Esp32

/-! ## Specification -/

/-- accepted applications: priorities of interrupt tasks 1 .. 14 (compile-time checks, `rtic-macros/src/codegen/bindings/esp32c3.rs:106-107`; 15 is that of the timer interrupt of a monotonic, `rtic-monotonics/src/esp32c3.rs:64-71`), ceilings bound the priorities of the users (C40) and are priorities themselves -/
structure WellFormed (c : Cfg) : Prop where
  prio : ∀ t, c.prio t ≤ 15
  ceil : ∀ t r, c.uses t r → c.prio t ≤ c.ceil r
  ceilMax : ∀ r, c.ceil r ≤ 14

def InsideLock (r : Nat) : Rec → Prop
  | .lk r' _ => r' = r
  | .cs (some r') _ => r' = r
  | _ => False

def ActivationOf (t : Nat) : Rec → Prop
  | .enter t' _ | .body t' _ _ | .leave t' _ => t' = t
  | _ => False

/-- the resources locked by the running activation -/
def held : List Rec → List Nat
  | .lk r _ :: rest => r :: held rest
  | .lk0 _ _ :: rest | .cs0 _ _ :: rest | .cs _ _ :: rest => held rest
  | _ => []

/-- executions in which a task never takes a lock with a lower ceiling while it holds one with a higher ceiling -/
inductive ExecOrd (c : Cfg) : St → List Act → St → Prop
  | nil (s) : ExecOrd c s [] s
  | snoc {s s1 s2 as a} (h : ExecOrd c s as s1) (hs : Step c s1 a s2) (ho : ∀ r, a = .lock r → ∀ r' ∈ held s1.stack, c.ceil r' ≤ c.ceil r) : ExecOrd c s (as ++ [a]) s2

theorem ExecOrd.exec {c : Cfg} {s s' : St} {as : List Act} (h : ExecOrd c s as s') : Exec c s as s' := by
  induction h with
  | nil => exact .nil _
  | snoc _ hs _ ih => exact .snoc ih hs

/-! ## The threshold is a function of the stack -/

def level (c : Cfg) (t0 : Nat) : List Rec → Nat
  | [] => t0
  | [.body _ _ none] => t0
  | .enter t _ :: _ => c.prio t + 1
  | .body t _ _ :: _ => c.prio t + 1
  | .leave t _ :: _ => if c.prio t = 1 then 1 else c.prio t + 1
  | .lk r _ :: _ => c.ceil r + 1
  | .lk0 _ _ :: rest | .cs0 _ _ :: rest | .cs _ _ :: rest => level c t0 rest

def masked : List Rec → Bool
  | [] => false
  | .cs _ _ :: _ => true
  | _ :: rest => masked rest

def Ok (c : Cfg) (t0 : Nat) : List Rec → Prop
  | [] => True
  | .enter t prev :: rest | .leave t prev :: rest => prev = level c t0 rest ∧ 1 ≤ c.prio t ∧ masked rest = false ∧ level c t0 rest ≤ c.prio t ∧ rest ≠ [] ∧ Ok c t0 rest
  | .body t prev i :: rest =>
    (rest = [] ∧ i = none ∧ c.prio t = 0) ∨
    (prev = level c t0 rest ∧ 1 ≤ c.prio t ∧ masked rest = false ∧ level c t0 rest ≤ c.prio t ∧ rest ≠ [] ∧ (i = none ∧ c.prio t = 1 ∨ i = some (c.prio t + 1) ∧ c.prio t ≠ 1) ∧ Ok c t0 rest)
  | .lk0 r cur :: rest | .lk r cur :: rest => cur = level c t0 rest ∧ c.ceil r ≠ 15 ∧ (∃ t, top rest = some t ∧ c.uses t r) ∧ inCode rest = true ∧ Ok c t0 rest
  | .cs0 r m :: rest | .cs r m :: rest => m = masked rest ∧ (∀ r', r = some r' → c.ceil r' = 15) ∧ inCode rest = true ∧ Ok c t0 rest

structure Inv (c : Cfg) (t0 : Nat) (s : St) : Prop where
  ok : Ok c t0 s.stack
  thr : s.thr = level c t0 s.stack
  off : s.off = masked s.stack
  ne : s.stack ≠ []

theorem inv_start {c : Cfg} {idle t0 : Nat} (hi : c.prio idle = 0) : Inv c t0 (start idle t0) :=
  ⟨.inl ⟨rfl, rfl, hi⟩, rfl, rfl, by simp [start]⟩

theorem inCode_ne {l : List Rec} (h : inCode l = true) : l ≠ [] := by rintro rfl; simp [inCode] at h

theorem level_body {c : Cfg} {t0 t prev : Nat} {i : Option Nat} {rest : List Rec} (h : rest ≠ []) : level c t0 (.body t prev i :: rest) = c.prio t + 1 := by
  cases rest with
  | nil => exact absurd rfl h
  | cons x l => cases i <;> simp [level]

theorem inv_step {c : Cfg} {t0 : Nat} {s s' : St} {a : Act} (hi : Inv c t0 s) (hs : Step c s a s') : Inv c t0 s' := by
  obtain ⟨hok, hthr, hoff, hne⟩ := hi
  obtain ⟨st, thr, off⟩ := s
  cases hs with
  | irq t hp ho ha =>
    simp only at hok hthr hoff hne ho ha
    refine ⟨⟨hthr, hp, by rw [← hoff]; exact ho, by rw [← hthr]; exact ha, hne, hok⟩, by simp [level], hoff, by simp⟩
  | readInitial t prev rest h =>
    simp only at hok hthr hoff h; subst h
    obtain ⟨h1, h2, h3, h4, h5, h6⟩ := hok
    simp only [level] at hthr
    refine ⟨.inr ⟨h1, h2, h3, h4, h5, ?_, h6⟩, ?_, hoff, by simp⟩
    · by_cases hp : c.prio t = 1
      · exact .inl ⟨if_pos hp, hp⟩
      · exact .inr ⟨by rw [if_neg hp, ← hthr], hp⟩
    · simp only [level_body h5]; exact hthr
  | lockCs t r htop hc hu hr => exact ⟨⟨hoff, fun r' h => by cases h; exact hr, hc, hok⟩, hthr, hoff, by simp⟩
  | lock t r htop hc hu hr => exact ⟨⟨hthr, hr, ⟨t, htop, hu⟩, hc, hok⟩, hthr, hoff, by simp⟩
  | userCs hc => exact ⟨⟨hoff, fun r' h => (by cases h), hc, hok⟩, hthr, hoff, by simp⟩
  | raise r cur rest h =>
    simp only at hok hthr hoff h; subst h
    exact ⟨hok, by simp [level], hoff, by simp⟩
  | raiseCs r m rest h =>
    simp only at hok hthr hoff h; subst h
    exact ⟨hok, hthr, rfl, by simp⟩
  | unlock r cur rest h =>
    simp only at hok hthr hoff h; subst h
    exact ⟨hok.2.2.2.2, hok.1, hoff, inCode_ne hok.2.2.2.1⟩
  | unlockCs r m rest h =>
    simp only at hok hthr hoff h; subst h
    exact ⟨hok.2.2.2, hthr, hok.1, inCode_ne hok.2.2.1⟩
  | finish1 t prev rest h hp =>
    simp only at hok hthr hoff h; subst h
    rcases hok with ⟨-, -, h0⟩ | ⟨h1, h2, h3, h4, h5, h6, h7⟩
    · omega
    · rcases h6 with ⟨-, h6⟩ | ⟨h6, -⟩
      · exact ⟨⟨h1, h2, h3, h4, h5, h7⟩, by simp [level, h6], hoff, by simp⟩
      · cases h6
  | finish t prev i rest h =>
    simp only at hok hthr hoff h; subst h
    rcases hok with ⟨-, h0, -⟩ | ⟨h1, h2, h3, h4, h5, h6, h7⟩
    · cases h0
    · rcases h6 with ⟨h6, -⟩ | ⟨h6, h8⟩
      · cases h6
      · cases h6; exact ⟨⟨h1, h2, h3, h4, h5, h7⟩, by simp [level, h8], hoff, by simp⟩
  | ret t prev rest h =>
    simp only at hok hthr hoff h; subst h
    exact ⟨hok.2.2.2.2.2, hok.1, hoff, hok.2.2.2.2.1⟩

theorem inv_exec {c : Cfg} {t0 : Nat} {s s' : St} {as : List Act} (hx : Exec c s as s') (hi : Inv c t0 s) : Inv c t0 s' := by
  induction hx with
  | nil => exact hi
  | snoc _ hs ih => exact inv_step ih hs

/-- **C47** (ESP32) The threshold and the interrupt enable state are a function of the nesting on the stack, so a `lock` that returns, at any nesting depth and with any preemptions, leaves them as it found them. -/
theorem C47_esp32_restores {c : Cfg} {idle t0 : Nat} (hidle : c.prio idle = 0) {as as' : List Act} {s s' : St}
    (hx : Exec c (start idle t0) as s) (hx' : Exec c (start idle t0) as' s') (hst : s.stack = s'.stack) : s.thr = s'.thr ∧ s.off = s'.off := by
  have h1 := inv_exec hx (inv_start hidle)
  have h2 := inv_exec hx' (inv_start hidle)
  rw [h1.thr, h2.thr, h1.off, h2.off, hst]; exact ⟨rfl, rfl⟩

/-! ## Exclusion with ordered nesting -/

/-- locks never lower the threshold -/
def Asc (c : Cfg) (t0 : Nat) : List Rec → Prop
  | [] => True
  | .lk r _ :: rest | .lk0 r _ :: rest => level c t0 rest ≤ c.ceil r + 1 ∧ Asc c t0 rest
  | _ :: rest => Asc c t0 rest

/-- inside a task's own code the threshold is that of the priority of the task, or of the innermost lock -/
theorem level_held {c : Cfg} {t0 : Nat} (ht0 : t0 ≤ 1) {l : List Rec} (hok : Ok c t0 l) (hc : inCode l = true) {t : Nat} (ht : top l = some t) :
    level c t0 l ≤ c.prio t + 1 ∨ ∃ r' ∈ held l, level c t0 l = c.ceil r' + 1 := by
  induction l with
  | nil => simp [inCode] at hc
  | cons x l ih =>
    cases x with
    | body t' prev i =>
      simp only [top] at ht; cases ht
      rcases hok with ⟨h1, h2, h3⟩ | ⟨h1, h2, h3, h4, h5, h6, h7⟩
      · subst h1; subst h2; left; simp only [level]; omega
      · left; rw [level_body h5]; omega
    | lk r cur => right; exact ⟨r, by simp [held], by simp [level]⟩
    | cs r m =>
      obtain ⟨-, -, h3, h4⟩ := hok
      simp only [top] at ht
      simpa [held, level] using ih h4 h3 ht
    | enter _ _ => simp [inCode] at hc
    | leave _ _ => simp [inCode] at hc
    | lk0 _ _ => simp [inCode] at hc
    | cs0 _ _ => simp [inCode] at hc

theorem asc_step {c : Cfg} (hwf : WellFormed c) {t0 : Nat} (ht0 : t0 ≤ 1) {s s' : St} {a : Act} (hi : Inv c t0 s) (ha : Asc c t0 s.stack) (hs : Step c s a s')
    (ho : ∀ r, a = .lock r → ∀ r' ∈ held s.stack, c.ceil r' ≤ c.ceil r) : Asc c t0 s'.stack := by
  obtain ⟨hok, -, -, -⟩ := hi
  obtain ⟨st, thr, off⟩ := s
  cases hs with
  | lock t r htop hc hu hr =>
    refine ⟨?_, ha⟩
    rcases level_held ht0 hok hc htop with h | ⟨r', h1, h2⟩
    · have := hwf.ceil t r hu
      simp only at h ⊢
      omega
    · have := ho r rfl r' h1
      simp only at h2 ⊢
      omega
  | raise r cur rest h => simp only at h ha; subst h; exact ha
  | raiseCs r m rest h => simp only at h ha; subst h; exact ha
  | unlock r cur rest h => simp only at h ha; subst h; exact ha.2
  | unlockCs r m rest h => simp only at h ha; subst h; exact ha
  | finish1 t prev rest h hp => simp only at h ha; subst h; exact ha
  | finish t prev i rest h => simp only at h ha; subst h; exact ha
  | ret t prev rest h => simp only at h ha; subst h; exact ha
  | readInitial t prev rest h => simp only at h ha; subst h; exact ha
  | irq t hp ho' ha' => exact ha
  | lockCs t r htop hc hu hr => exact ha
  | userCs hc => exact ha

theorem asc_exec {c : Cfg} (hwf : WellFormed c) {idle t0 : Nat} (ht0 : t0 ≤ 1) (hidle : c.prio idle = 0) {as : List Act} {s : St} (hx : ExecOrd c (start idle t0) as s) :
    Asc c t0 s.stack := by
  generalize hs0 : start idle t0 = s0 at hx
  induction hx with
  | nil => subst hs0; exact trivial
  | snoc h hs ho ih =>
    subst hs0
    exact asc_step hwf ht0 (inv_exec h.exec (inv_start hidle)) ih hs ho

theorem ok_tail {c : Cfg} {t0 : Nat} {x : Rec} {l : List Rec} (h : Ok c t0 (x :: l)) : Ok c t0 l := by
  cases x with
  | enter _ _ => exact h.2.2.2.2.2
  | leave _ _ => exact h.2.2.2.2.2
  | body _ _ _ =>
    rcases h with ⟨h1, -⟩ | h
    · subst h1; trivial
    · exact h.2.2.2.2.2.2
  | lk0 _ _ => exact h.2.2.2.2
  | lk _ _ => exact h.2.2.2.2
  | cs0 _ _ => exact h.2.2.2
  | cs _ _ => exact h.2.2.2

theorem ok_append {c : Cfg} {t0 : Nat} {l1 l2 : List Rec} (h : Ok c t0 (l1 ++ l2)) : Ok c t0 l2 := by
  induction l1 with
  | nil => exact h
  | cons x l ih => exact ih (ok_tail h)

theorem asc_tail {c : Cfg} {t0 : Nat} {x : Rec} {l : List Rec} (h : Asc c t0 (x :: l)) : Asc c t0 l := by
  cases x <;> first | exact h.2 | exact h

/-- the threshold only grows up the stack -/
theorem level_mono {c : Cfg} {t0 : Nat} (ht0 : t0 ≤ 1) {x : Rec} {l : List Rec} (hok : Ok c t0 (x :: l)) (ha : Asc c t0 (x :: l)) (hne : l ≠ []) : level c t0 l ≤ level c t0 (x :: l) := by
  cases x with
  | enter t prev => have := hok.2.2.2.1; simp only [level]; omega
  | leave t prev =>
    have h1 := hok.2.2.2.1
    simp only [level]; split <;> omega
  | body t prev i =>
    rw [level_body hne]
    rcases hok with ⟨h, -⟩ | h
    · exact absurd h hne
    · have := h.2.2.2.1; omega
  | lk r cur => simp only [level]; exact ha.1
  | lk0 r cur => simp only [level]; omega
  | cs0 r m => simp only [level]; omega
  | cs r m => simp only [level]; omega

theorem level_mono' {c : Cfg} {t0 : Nat} (ht0 : t0 ≤ 1) {l1 : List Rec} {x : Rec} {l : List Rec} (hok : Ok c t0 (l1 ++ x :: l)) (ha : Asc c t0 (l1 ++ x :: l)) :
    level c t0 (x :: l) ≤ level c t0 (l1 ++ x :: l) := by
  induction l1 with
  | nil => exact Nat.le_refl _
  | cons z l1 ih =>
    have h1 := ih (ok_tail hok) (asc_tail ha)
    have h2 := level_mono ht0 (l := l1 ++ x :: l) hok ha (by simp)
    rw [List.cons_append]
    omega

theorem masked_of_mem {l : List Rec} {r : Option Nat} {m : Bool} (h : .cs r m ∈ l) : masked l = true := by
  induction l with
  | nil => cases h
  | cons x l ih =>
    rcases List.mem_cons.mp h with rfl | h'
    · rfl
    · have := ih h'
      cases x <;> simp only [masked] <;> exact this

/-- an activation above something was admitted by it -/
theorem act_admitted {c : Cfg} {t0 : Nat} {x : Rec} {rest : List Rec} {t : Nat} (h : Ok c t0 (x :: rest)) (ha : ActivationOf t x) (hne : rest ≠ []) :
    masked rest = false ∧ level c t0 rest ≤ c.prio t := by
  cases x with
  | enter t' prev => simp only [ActivationOf] at ha; subst ha; exact ⟨h.2.2.1, h.2.2.2.1⟩
  | leave t' prev => simp only [ActivationOf] at ha; subst ha; exact ⟨h.2.2.1, h.2.2.2.1⟩
  | body t' prev i =>
    simp only [ActivationOf] at ha; subst ha
    rcases h with ⟨h1, -⟩ | h
    · exact absurd h1 hne
    · exact ⟨h.2.2.1, h.2.2.2.1⟩
  | _ => exact ha.elim

/-- **C51** (partial) Mutual exclusion on ESP32 for executions in which no task takes a lock with a lower ceiling inside one with a higher ceiling (in particular if locks are not nested): above a record inside `lock` on `r` no task using `r` runs.
Missing: nested locks with decreasing ceilings, for which the property is false (`C51_nested_violated`). -/
theorem C51_mutual_exclusion_partial {c : Cfg} (hwf : WellFormed c) {idle t0 : Nat} (ht0 : t0 ≤ 1) (hidle : c.prio idle = 0) {as : List Act} {s : St}
    (hx : ExecOrd c (start idle t0) as s) {above below : List Rec} {x y : Rec} {r t : Nat} (hst : s.stack = above ++ x :: below) (hl : InsideLock r x)
    (hy : y ∈ above) (ht : ActivationOf t y) : ¬ c.uses t r := by
  intro hu
  have hi := inv_exec hx.exec (inv_start hidle)
  have hasc := asc_exec hwf ht0 hidle hx
  obtain ⟨p1, p2, rfl⟩ := List.append_of_mem hy
  have hok := hi.ok
  rw [hst, List.append_assoc, List.cons_append] at hok hasc
  have hok2 := ok_append hok
  have hasc2 : Asc c t0 (y :: (p2 ++ x :: below)) := by
    clear hok hst hy
    induction p1 with
    | nil => exact hasc
    | cons z l ih => exact ih (asc_tail hasc)
  obtain ⟨hm, hlv⟩ := act_admitted hok2 ht (by simp)
  have hmem : x ∈ p2 ++ x :: below := by simp
  cases x with
  | lk r' cur =>
    simp only [InsideLock] at hl; subst hl
    have h1 := level_mono' ht0 (ok_tail hok2) (asc_tail hasc2)
    have h2 := hwf.ceil t r' hu
    simp only [level] at h1
    omega
  | cs r' m => rw [masked_of_mem hmem] at hm; cases hm
  | _ => exact hl

/-- the activation has not returned from the task's body yet -/
def RunningOf (t : Nat) : Rec → Prop
  | .enter t' _ | .body t' _ _ => t' = t
  | _ => False

/-- above a running activation the threshold is above its priority, whatever is locked -/
theorem level_running {c : Cfg} (hc : ∀ t r, c.uses t r → c.prio t ≤ c.ceil r) {t0 m : Nat} (hm : 1 ≤ c.prio m) {y : Rec} (hr : RunningOf m y) {l : List Rec} (hok : Ok c t0 l) (hy : y ∈ l) :
    c.prio m + 1 ≤ level c t0 l ∧ ∀ t, top l = some t → c.prio m ≤ c.prio t := by
  induction l with
  | nil => cases hy
  | cons x l ih =>
    have htail := ok_tail hok
    rcases List.mem_cons.mp hy with rfl | hy
    · cases y with
      | enter t prev => simp only [RunningOf] at hr; subst hr; simp only [level, top, Option.some.injEq]; exact ⟨Nat.le_refl _, fun t h => by subst h; exact Nat.le_refl _⟩
      | body t prev i =>
        simp only [RunningOf] at hr; subst hr
        rcases hok with ⟨-, -, h0⟩ | ⟨-, -, -, -, h5, -⟩
        · omega
        · rw [level_body h5]; simp only [top, Option.some.injEq]; exact ⟨Nat.le_refl _, fun t h => by subst h; exact Nat.le_refl _⟩
      | _ => exact hr.elim
    · obtain ⟨h1, h2⟩ := ih htail hy
      have hne : l ≠ [] := by rintro rfl; cases hy
      cases x with
      | enter t prev =>
        have := hok.2.2.2.1
        simp only [level, top, Option.some.injEq]
        exact ⟨by omega, fun t h => by subst h; omega⟩
      | leave t prev =>
        have := hok.2.2.2.1
        simp only [level, top, Option.some.injEq]
        exact ⟨by split <;> omega, fun t h => by subst h; omega⟩
      | body t prev i =>
        rcases hok with ⟨h, -⟩ | ⟨-, -, -, h4, -⟩
        · exact absurd h hne
        · rw [level_body hne]
          simp only [top, Option.some.injEq]
          exact ⟨by omega, fun t h => by subst h; omega⟩
      | lk r cur =>
        obtain ⟨-, -, ⟨t, ht, hu⟩, -, -⟩ := hok
        have h3 := h2 t ht
        have h4 := hc t r hu
        simp only [level]
        exact ⟨by omega, h2⟩
      | lk0 r cur => exact ⟨h1, h2⟩
      | cs0 r m' => exact ⟨h1, h2⟩
      | cs r m' => exact ⟨h1, h2⟩

/-- **C52** (ESP32) A handler only ever preempts tasks of lower priority: every activation below it that is still in its task has a strictly lower priority. Also with nested locks of any ceilings. -/
theorem C52_esp_running_is_highest {c : Cfg} (hwf : WellFormed c) {idle t0 : Nat} (hidle : c.prio idle = 0) {as : List Act} {s : St} (hx : Exec c (start idle t0) as s)
    {above below : List Rec} {x y : Rec} {n m : Nat} (hst : s.stack = above ++ x :: below) (hn : ActivationOf n x) (hy : y ∈ below) (hm : RunningOf m y) : c.prio m < c.prio n := by
  have hok := (inv_exec hx (inv_start hidle)).ok
  rw [hst] at hok
  have hok := ok_append hok
  have hne : below ≠ [] := by rintro rfl; cases hy
  have hadm := (act_admitted hok hn hne).2
  have hpos : 1 ≤ c.prio n := by
    cases x with
    | enter t prev => simp only [ActivationOf] at hn; subst hn; exact hok.2.1
    | leave t prev => simp only [ActivationOf] at hn; subst hn; exact hok.2.1
    | body t prev i =>
      simp only [ActivationOf] at hn; subst hn
      rcases hok with ⟨h, -⟩ | ⟨-, h, -⟩
      · exact absurd h hne
      · exact h
    | _ => exact hn.elim
  rcases Nat.eq_zero_or_pos (c.prio m) with h0 | h0
  · omega
  · have := (level_running hwf.ceil h0 hm (ok_tail hok) hy).1
    omega

/-- Idle (task 0), task 1 (priority 1), task 3 (priority 3). Resource 10 is used by tasks 1 and 3 (ceiling 3), resource 11 by idle and task 1 (ceiling 1). -/
def demo : Cfg :=
  { prio := fun t => if t = 1 then 1 else if t = 3 then 3 else 0
    uses := fun t r => r = 10 ∧ (t = 1 ∨ t = 3) ∨ r = 11 ∧ (t = 0 ∨ t = 1)
    ceil := fun r => if r = 10 then 3 else if r = 11 then 1 else 0 }

theorem demo_wf : WellFormed demo := by
  refine ⟨fun t => ?_, fun t r h => ?_, fun r => ?_⟩
  · show (if t = 1 then 1 else if t = 3 then 3 else 0) ≤ 15
    repeat' split
    all_goals omega
  · rcases h with ⟨rfl, rfl | rfl⟩ | ⟨rfl, rfl | rfl⟩ <;> decide
  · show (if r = 10 then 3 else if r = 11 then 1 else 0) ≤ 14
    repeat' split
    all_goals omega

/-- task 3 preempts task 1 inside nested locks -/
example : ∃ as s, Exec demo (start 0 0) as s ∧ s.stack = [.enter 3 2, .lk 11 4, .lk 10 2, .body 1 0 none, .body 0 0 none] := by
  refine ⟨[] ++ [.irq 1] ++ [.readInitial] ++ [.lock 10] ++ [.raise] ++ [.lock 11] ++ [.raise] ++ [.irq 3], ⟨[.enter 3 2, .lk 11 4, .lk 10 2, .body 1 0 none, .body 0 0 none], 4, false⟩, ?_, rfl⟩
  exact .snoc (.snoc (.snoc (.snoc (.snoc (.snoc (.snoc (.nil _) (.irq 1 (by decide) rfl (by decide))) (.readInitial 1 0 _ rfl))
    (.lock 1 10 rfl rfl (.inl ⟨rfl, .inl rfl⟩) (by decide))) (.raise 10 2 _ rfl)) (.lock 1 11 rfl rfl (.inr ⟨rfl, .inr rfl⟩) (by decide))) (.raise 11 4 _ rfl))
    (.irq 3 (by decide) rfl (by decide))

/-- a non-trivial ordered execution: task 1 locks resource 11 and inside it resource 10; task 3 cannot preempt (threshold 4) -/
example : ∃ as s, ExecOrd demo (start 0 0) as s ∧ s.stack = [.lk 10 2, .lk 11 2, .body 1 0 none, .body 0 0 none] ∧ s.thr = 4 := by
  refine ⟨[] ++ [.irq 1] ++ [.readInitial] ++ [.lock 11] ++ [.raise] ++ [.lock 10] ++ [.raise], ⟨[.lk 10 2, .lk 11 2, .body 1 0 none, .body 0 0 none], 4, false⟩, ?_, rfl, rfl⟩
  refine .snoc (.snoc (.snoc (.snoc (.snoc (.snoc (.nil _) (.irq 1 (by decide) rfl (by decide)) ?_) (.readInitial 1 0 _ rfl) ?_) (.lock 1 11 rfl rfl (.inr ⟨rfl, .inr rfl⟩) (by decide)) ?_)
    (.raise 11 2 _ rfl) ?_) (.lock 1 10 rfl rfl (.inl ⟨rfl, .inl rfl⟩) (by decide)) ?_) (.raise 10 2 _ rfl) ?_ <;> intro r h <;> cases h
  · intro r' hr'; simp [held] at hr'
  · intro r' hr'; simp [held] at hr'; subst hr'; decide

/-- **C51** (false) With nested locks of decreasing ceilings, exclusion is lost: there is an accepted application in which task 1 is inside `lock` on resource 10, task 3, which uses resource 10, preempts it and is also inside `lock` on
resource 10. The inner `lock` on resource 11 writes the threshold for its own lower ceiling. -/
theorem C51_nested_violated : ∃ (c : Cfg) (_ : WellFormed c) (idle t0 : Nat) (as : List Act) (s : St) (r : Nat),
    c.prio idle = 0 ∧ t0 ≤ 1 ∧ Exec c (start idle t0) as s ∧
    ∃ (c1 c2 : Nat) (mid below : List Rec) (t : Nat) (prev : Nat) (i : Option Nat), s.stack = .lk r c2 :: .body t prev i :: (mid ++ .lk r c1 :: below) ∧ c.uses t r := by
  refine ⟨demo, demo_wf, 0, 0, [] ++ [.irq 1] ++ [.readInitial] ++ [.lock 10] ++ [.raise] ++ [.lock 11] ++ [.raise] ++ [.irq 3] ++ [.readInitial] ++ [.lock 10] ++ [.raise],
    ⟨[.lk 10 4, .body 3 2 (some 4), .lk 11 4, .lk 10 2, .body 1 0 none, .body 0 0 none], 4, false⟩, 10, rfl, by decide, ?_, 2, 4, [.lk 11 4], [.body 1 0 none, .body 0 0 none], 3, 2, some 4, rfl, .inl ⟨rfl, .inr rfl⟩⟩
  exact .snoc (.snoc (.snoc (.snoc (.snoc (.snoc (.snoc (.snoc (.snoc (.snoc (.nil _) (.irq 1 (by decide) rfl (by decide))) (.readInitial 1 0 _ rfl))
    (.lock 1 10 rfl rfl (.inl ⟨rfl, .inl rfl⟩) (by decide))) (.raise 10 2 _ rfl)) (.lock 1 11 rfl rfl (.inr ⟨rfl, .inr rfl⟩) (by decide))) (.raise 11 4 _ rfl))
    (.irq 3 (by decide) rfl (by decide))) (.readInitial 3 2 _ rfl)) (.lock 3 10 rfl rfl (.inl ⟨rfl, .inr rfl⟩) (by decide))) (.raise 10 4 _ rfl)

end Verif.Esp32
