import Verif.Executor.Spec

namespace Verif.Executor

theorem upd_apply {α} (f : Nat → α) (i j : Nat) (a : α) : upd f i a j = if j = i then a else f j := rfl
grind_pattern upd_apply => upd f i a j

theorem oks_append (t : Nat) (a b : List Ev) : oks t (a ++ b) = oks t a ++ oks t b := by
  induction a with
  | nil => rfl
  | cons e a ih => cases e <;> simp [oks, ih] <;> split <;> simp

theorem starts_append (t : Nat) (a b : List Ev) : starts t (a ++ b) = starts t a ++ starts t b := by
  induction a with
  | nil => rfl
  | cons e a ih => cases e <;> simp [starts, ih] <;> split <;> simp

theorem dones_append (t : Nat) (a b : List Ev) : dones t (a ++ b) = dones t a + dones t b := by
  induction a with
  | nil => simp [dones]
  | cons e a ih => cases e <;> simp [dones, ih] <;> split <;> omega

theorem dispCount_append (a b : List Act) : dispCount (a ++ b) = dispCount a + dispCount b := by
  induction a with
  | nil => simp [dispCount]
  | cons e a ih => cases e <;> simp [dispCount, ih]; omega

theorem exec_cons {c : Cfg} {s : St} {a : Act} {as : List Act} {s2 : St} {tr : List Ev} (h : exec c s (a :: as) = some (s2, tr)) :
    ∃ s1 e1 e2, step c s a = some (s1, e1) ∧ exec c s1 as = some (s2, e2) ∧ tr = e1 ++ e2 := by
  simp only [exec] at h
  cases hs : step c s a with
  | none => rw [hs] at h; cases h
  | some p =>
    rw [hs] at h; simp only at h
    cases hx : exec c p.1 as with
    | none => rw [hx] at h; cases h
    | some q =>
      rw [hx] at h
      simp only [Option.some.injEq, Prod.mk.injEq] at h
      obtain ⟨rfl, rfl⟩ := h
      exact ⟨p.1, p.2, q.2, rfl, hx, rfl⟩

theorem exec_append {c : Cfg} {as bs : List Act} : ∀ {s s2 : St} {tr : List Ev}, exec c s (as ++ bs) = some (s2, tr) →
    ∃ s1 e1 e2, exec c s as = some (s1, e1) ∧ exec c s1 bs = some (s2, e2) ∧ tr = e1 ++ e2 := by
  induction as with
  | nil => intro s s2 tr h; exact ⟨s, [], tr, rfl, h, rfl⟩
  | cons a as ih =>
    intro s s2 tr h
    obtain ⟨s1, e1, e2, h1, h2, rfl⟩ := exec_cons h
    obtain ⟨s3, e3, e4, h3, h4, rfl⟩ := ih h2
    exact ⟨s3, e1 ++ e3, e4, by simp [exec, h1, h3], h4, by simp⟩

theorem exec_trans {c : Cfg} {as bs : List Act} {s s1 s2 : St} {e1 e2 : List Ev} (h1 : exec c s as = some (s1, e1))
    (h2 : exec c s1 bs = some (s2, e2)) : exec c s (as ++ bs) = some (s2, e1 ++ e2) := by
  induction as generalizing s e1 with
  | nil => simp only [exec, Option.some.injEq, Prod.mk.injEq] at h1; obtain ⟨rfl, rfl⟩ := h1; simpa using h2
  | cons a as ih =>
    obtain ⟨s3, e3, e4, h3, h4, rfl⟩ := exec_cons h1
    simp [exec, h3, ih h4]

/-- an invariant over state and history -/
theorem exec_inv {c : Cfg} {P : St → List Ev → Prop} (hstep : ∀ s h a s1 e, P s h → step c s a = some (s1, e) → P s1 (h ++ e)) :
    ∀ acts s h s2 tr, P s h → exec c s acts = some (s2, tr) → P s2 (h ++ tr) := by
  intro acts
  induction acts with
  | nil => intro s h s2 tr hp he; simp only [exec, Option.some.injEq, Prod.mk.injEq] at he; obtain ⟨rfl, rfl⟩ := he; simpa using hp
  | cons a as ih =>
    intro s h s2 tr hp he
    obtain ⟨s1, e1, e2, h1, h2, rfl⟩ := exec_cons he
    have := ih s1 _ s2 e2 (hstep s h a s1 e1 hp h1) h2
    simpa [List.append_assoc] using this

/-- the dispatcher is dealing with a task it has seen running -/
def Dpc.on : Dpc → Option Nat
  | .pend t _ | .poll t _ | .body t _ | .rel t _ => some t
  | _ => none

def Dpc.isRel (t : Nat) : Dpc → Bool
  | .rel t' _ => t' = t
  | _ => false

def Dpc.isBody (t : Nat) : Dpc → Bool
  | .body t' _ => t' = t
  | _ => false

/-- life cycle of one task -/
inductive Ph where
  | idle
  /-- thread `i` is between allocation and storing the future -/
  | storing (i a : Nat)
  | fresh (a : Nat)
  | begun (a : Nat)
  /-- completed, about to be released -/
  | fin
deriving DecidableEq

def Ph.live : Ph → Bool
  | .idle => false
  | _ => true

def Ph.slotOk : Ph → Slot → Prop
  | .idle, x | .storing _ _, x => x = .empty ∨ x = .done
  | .fresh a, x => x = .fresh a
  | .begun a, x => x = .begun a
  | .fin, x => x = .done

/-- arguments accepted but not started -/
def Ph.extra : Ph → List Nat
  | .storing _ a | .fresh a => [a]
  | _ => []

def Ph.isBegun : Ph → Bool
  | .begun _ => true
  | _ => false

/-- Invariant for one task `t` in phase `p` and the history `h`. -/
structure PInv (t : Nat) (s : St) (h : List Ev) (p : Ph) : Prop where
  run : s.running t = p.live
  slot : p.slotOk (s.slot t)
  pcs : ∀ i a, s.pc i = .s2 t a ↔ p = .storing i a
  hist : oks t h = starts t h ++ p.extra
  cnt : (oks t h).length = dones t h + (if p.live then 1 else 0)
  rel : s.d.isRel t = true ↔ p = .fin
  bod : s.d.isBody t = true → p.isBegun = true
  on : s.d.on = some t → p.live = true

def Inv (t : Nat) (s : St) (h : List Ev) : Prop := ∃ p, PInv t s h p

theorem inv_init (t : Nat) : Inv t init [] := by
  refine ⟨.idle, ?_⟩
  constructor <;> simp [init, oks, starts, dones, Ph.live, Ph.slotOk, Ph.extra, Dpc.on, Dpc.isRel, Dpc.isBody]

/-- The transitions of `step`, one constructor per access; the flag tells the dispatcher's accesses. -/
inductive Tr (c : Cfg) (s : St) : Bool → St → List Ev → Prop
  | callSpawn (i t a) (h : s.pc i = .idle) (ht : t ∈ c.ts) : Tr c s false { s with pc := upd s.pc i (.s1 t a) } []
  | callWake (i t) (h : s.pc i = .idle) (ht : t ∈ c.ts) : Tr c s false { s with pc := upd s.pc i (.w1 t) } []
  | err (i t a) (h : s.pc i = .s1 t a) (hr : s.running t = true) : Tr c s false { s with pc := upd s.pc i .idle } [.err t a]
  | ok (i t a) (h : s.pc i = .s1 t a) (hr : s.running t = false) : Tr c s false { s with running := upd s.running t true, pc := upd s.pc i (.s2 t a) } [.ok t a]
  | store (i t a) (h : s.pc i = .s2 t a) : Tr c s false { s with slot := upd s.slot t (.fresh a), pc := upd s.pc i (.s3 t) } []
  | setp (i t) (h : s.pc i = .s3 t ∨ s.pc i = .w1 t) : Tr c s false { s with pending := upd s.pending t true, pc := upd s.pc i (.p t) } []
  | pendi (i t) (h : s.pc i = .p t) : Tr c s false { s with irq := true, pc := upd s.pc i .idle } []
  | dstart (h : s.d = .idle) (hi : s.irq = true ∨ c.zero = true) : Tr c s true { s with irq := false, d := .run c.ts } []
  | dend (h : s.d = .run []) : Tr c s true { s with d := .idle } []
  | dskip (t rest) (h : s.d = .run (t :: rest)) (hr : s.running t = false) : Tr c s true { s with d := .run rest } []
  | drun (t rest) (h : s.d = .run (t :: rest)) (hr : s.running t = true) : Tr c s true { s with d := .pend t rest } []
  | dclear (t rest) (h : s.d = .pend t rest) (hp : s.pending t = true) : Tr c s true { s with pending := upd s.pending t false, d := .poll t rest } []
  | dnot (t rest) (h : s.d = .pend t rest) (hp : s.pending t = false) : Tr c s true { s with d := .run rest } []
  | dfirst (t rest a) (h : s.d = .poll t rest) (hp : s.slot t = .fresh a) : Tr c s true { s with slot := upd s.slot t (.begun a), d := .body t rest } [.started t a, .polled t]
  | dagain (t rest a) (h : s.d = .poll t rest) (hp : s.slot t = .begun a) : Tr c s true { s with d := .body t rest } [.polled t]
  | dbad (t rest) (h : s.d = .poll t rest) (hp : s.slot t = .empty ∨ s.slot t = .done) : Tr c s true { s with ub := true } [.badPoll t]
  | dready (t rest) (h : s.d = .body t rest) : Tr c s true { s with slot := upd s.slot t .done, d := .rel t rest } []
  | dpending (t rest) (h : s.d = .body t rest) : Tr c s true { s with d := .run rest } []
  | drel (t rest) (h : s.d = .rel t rest) : Tr c s true { s with running := upd s.running t false, d := .run rest } [.completed t]

/-- is it a dispatcher access -/
def Act.isDisp : Act → Bool
  | .disp _ => true
  | _ => false

theorem tr_of_step {c : Cfg} {s s1 : St} {a : Act} {e : List Ev} (hs : step c s a = some (s1, e)) : Tr c s a.isDisp s1 e := by
  unfold step at hs
  split at hs
  · cases hs
  · cases a with
    | callSpawn i t a => 
      simp only at hs
      split at hs
      · rename_i h; cases hs; exact .callSpawn i t a h.1 h.2
      · cases hs
    | callWake i t => 
      simp only at hs
      split at hs
      · rename_i h; cases hs; exact .callWake i t h.1 h.2
      · cases hs
    | thr i =>
      simp only [stepThr] at hs
      cases hp : s.pc i with
      | idle => simp [hp] at hs
      | s1 t a =>
        simp only [hp] at hs
        split at hs
        · rename_i hr; cases hs; exact .err i t a hp hr
        · rename_i hr; cases hs; exact .ok i t a hp (by simpa using hr)
      | s2 t a => simp only [hp] at hs; cases hs; exact .store i t a hp
      | s3 t => simp only [hp] at hs; cases hs; exact .setp i t (.inl hp)
      | w1 t => simp only [hp] at hs; cases hs; exact .setp i t (.inr hp)
      | p t => simp only [hp] at hs; cases hs; exact .pendi i t hp
    | disp r =>
      simp only [stepDisp] at hs
      cases hd : s.d with
      | idle =>
        simp only [hd] at hs
        split at hs
        · rename_i h; cases hs; exact .dstart hd (by simpa using h)
        · cases hs
      | run rest =>
        cases rest with
        | nil => simp only [hd] at hs; cases hs; exact .dend hd
        | cons t rest =>
          simp only [hd] at hs
          cases hr : s.running t <;> simp only [hr] at hs <;> cases hs
          · exact .dskip t rest hd hr
          · exact .drun t rest hd hr
      | pend t rest =>
        simp only [hd] at hs
        split at hs
        · rename_i h; cases hs; exact .dclear t rest hd h
        · rename_i h; cases hs; exact .dnot t rest hd (by simpa using h)
      | poll t rest =>
        simp only [hd] at hs
        cases hp : s.slot t with
        | empty => simp only [hp] at hs; cases hs; exact hd ▸ .dbad t rest hd (.inl hp)
        | done => simp only [hp] at hs; cases hs; exact hd ▸ .dbad t rest hd (.inr hp)
        | fresh a => simp only [hp] at hs; cases hs; exact .dfirst t rest a hd hp
        | begun a => simp only [hp] at hs; cases hs; exact .dagain t rest a hd hp
      | body t rest =>
        simp only [hd] at hs
        split at hs
        · cases hs; exact .dready t rest hd
        · cases hs; exact .dpending t rest hd
      | rel t rest => simp only [hd] at hs; cases hs; exact .drel t rest hd

macro "pinv" : tactic => `(tactic| (
  constructor <;>
    simp only [oks_append, starts_append, dones_append, oks, starts, dones, List.append_nil, Nat.add_zero] <;>
    grind [Dpc.on, Dpc.isRel, Dpc.isBody, Ph.live, Ph.slotOk, Ph.extra, Ph.isBegun]))

theorem inv_step {c : Cfg} {t : Nat} (s : St) (h : List Ev) (a : Act) (s1 : St) (e : List Ev) (hi : Inv t s h)
    (hs : step c s a = some (s1, e)) : Inv t s1 (h ++ e) := by
  obtain ⟨p, h1, h2, h3, h4, h5, h6, h7, h8⟩ := hi
  have htr := tr_of_step hs
  generalize a.isDisp = fl at htr
  cases htr with
  | ok i t' a hp hr =>
    by_cases ht : t' = t
    · subst ht; exact ⟨.storing i a, by pinv⟩
    · exact ⟨p, by pinv⟩
  | store i t' a hp =>
    by_cases ht : t' = t
    · subst ht; exact ⟨.fresh a, by pinv⟩
    · exact ⟨p, by pinv⟩
  | dfirst t' rest a hp hr =>
    by_cases ht : t' = t
    · subst ht; cases p <;> exact ⟨.begun a, by pinv⟩
    · exact ⟨p, by pinv⟩
  | dready t' rest hp =>
    by_cases ht : t' = t
    · subst ht; cases p <;> exact ⟨.fin, by pinv⟩
    · exact ⟨p, by pinv⟩
  | drel t' rest hp =>
    by_cases ht : t' = t
    · subst ht; exact ⟨.idle, by pinv⟩
    · exact ⟨p, by pinv⟩
  | dagain t' rest a hp hr =>
    by_cases ht : t' = t
    · subst ht; cases p <;> exact ⟨.begun a, by pinv⟩
    · exact ⟨p, by pinv⟩
  | _ => exact ⟨p, by pinv⟩

end Verif.Executor
