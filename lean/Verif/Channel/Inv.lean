import Verif.Channel.Trans

/-! # Invariants of the channel machine -/

namespace Verif.Channel

variable {T : Type}

@[simp] theorem set_same {β : Type} (f : Nat → β) (i : Nat) (x : β) : set f i x i = x := by simp [set]
theorem set_ne {β : Type} (f : Nat → β) {i j : Nat} (x : β) (h : j ≠ i) : set f i x j = f j := by simp [set, h]
@[grind =] theorem set_apply {β : Type} (f : Nat → β) (i j : Nat) (x : β) :
    set f i x j = if j = i then x else f j := rfl

/-- `send` operations whose link variable may be in use. -/
@[grind] def Pc.inSend : Pc T → Bool
  | .snd _ | .drop0 _ _ => true
  | _ => false

@[grind] def Pc.isDrop1 : Pc T → Bool
  | .drop1 _ _ => true
  | _ => false

/-- The structure of the wait queue. -/
structure InvQ (s : St T) : Prop where
  nodup : s.wq.Nodup
  mem : ∀ i, i ∈ s.wq ↔ ∃ l, s.lk i = some l ∧ l.popped = false
  lkpc : ∀ i l, s.lk i = some l → (s.snd i).inSend = true
  slpc : ∀ i x, s.sl i = some x → (∃ l, s.lk i = some l ∧ l.popped = true) ∨ (s.snd i).isDrop1 = true
  free : s.wq ≠ [] → s.free = []

theorem invQ_init (n : Nat) : InvQ (init n : St T) := by
  constructor <;> simp [init]

theorem erase_mem_iff {l : List Nat} (h : l.Nodup) (a b : Nat) : a ∈ l.erase b ↔ a ≠ b ∧ a ∈ l := by
  rw [h.mem_erase_iff]

theorem invQ_tr {n : Nat} {s s' : St T} {e} (h : InvQ s) (hs : Tr n s s' e) : InvQ s' := by
  obtain ⟨h1, h2, h3, h4, h5⟩ := h
  cases hs with
  | pollWait i v w hi hc hl hf =>
    refine ⟨by grind [List.nodup_append], ?_, by grind, by grind, by grind⟩
    intro j
    by_cases hj : j = i
    · subst hj; simp
    · simp [set_ne _ _ hj, hj, h2]
  | drop0 i v k hi => constructor <;> grind [List.Nodup.erase, erase_mem_iff]
  | drop1None i v k hi hx => constructor <;> grind
  | drop1Free i v k x hi hx hq => constructor <;> grind
  | drop1Grant i v k x j q l hi hx hq hl => constructor <;> grind
  | _ => constructor <;> grind

/-! ## Ownership of slots -/

/-- Where a slot index is. -/
inductive Owner where
  /-- in `freeq` -/
  | free
  /-- in `readyq` -/
  | ready
  /-- held by the running operation of sender `i` -/
  | snd (i : Nat)
  /-- promised to the waiting sender `i` (its `free_slot_ptr`) -/
  | sl (i : Nat)
  /-- held by the running operation of the receiver -/
  | rx
  /-- drained by `Receiver::drop` -/
  | lost
deriving DecidableEq

@[grind] def Pc.held : Pc T → Option Nat
  | .drop0 _ (.ok x) | .drop1 _ (.ok x) | .hold _ x | .written _ x => some x
  | _ => none

@[grind] def Rx.held : Rx T → Option Nat
  | .got _ x | .rd _ x _ | .dgot x => some x
  | _ => none

@[grind] def Rx.unread : Rx T → Option Nat
  | .got _ x | .dgot x => some x
  | _ => none

structure InvO (n : Nat) (s : St T) (own : Nat → Owner) : Prop where
  freeNd : s.free.Nodup
  readyNd : s.ready.Nodup
  free : ∀ x, x ∈ s.free ↔ x < n ∧ own x = .free
  ready : ∀ x, x ∈ s.ready ↔ x < n ∧ own x = .ready
  snd : ∀ i x, (s.snd i).held = some x ↔ x < n ∧ own x = .snd i
  sl : ∀ i x, s.sl i = some x ↔ x < n ∧ own x = .sl i
  rx : ∀ x, s.rx.held = some x ↔ x < n ∧ own x = .rx
  lost : ∀ x, x < n → own x = .lost → s.rcvDropped = true

theorem invO_init (n : Nat) : InvO n (init n : St T) (fun _ => .free) := by
  constructor <;> simp [init, List.nodup_range]
  · intro i x; split <;> simp [Pc.held]
  · simp [Rx.held]

theorem idle_sl {s : St T} (h : InvQ s) {i : Nat} (hi : s.snd i = .idle) : s.sl i = none := by
  cases hx : s.sl i with
  | none => rfl
  | some x => have := h.slpc i x hx; have := h.lkpc i; grind

/-- the first waiter is in `send` and has no slot yet -/
theorem head_sl {s : St T} (h : InvQ s) {j : Nat} {q} (hq : s.wq = j :: q) :
    (s.snd j).inSend = true ∧ s.sl j = none := by
  obtain ⟨l, hl, hp⟩ := (h.mem j).1 (by simp [hq])
  have h1 := h.lkpc j l hl
  refine ⟨h1, ?_⟩
  cases hx : s.sl j with
  | none => rfl
  | some x =>
    rcases h.slpc j x hx with ⟨l', hl', hp'⟩ | h2
    · rw [hl] at hl'; cases hl'; rw [hp] at hp'; cases hp'
    · cases hpc : s.snd j <;> rw [hpc] at h1 h2 <;> cases h1 <;> cases h2

theorem InvO.frame {n : Nat} {s s' : St T} {own} (h : InvO n s own) (h1 : s'.free = s.free) (h2 : s'.ready = s.ready)
    (h3 : ∀ i, (s'.snd i).held = (s.snd i).held) (h4 : s'.sl = s.sl) (h5 : s'.rx.held = s.rx.held)
    (h6 : s.rcvDropped = true → s'.rcvDropped = true) : InvO n s' own := by
  obtain ⟨g1, g2, g3, g4, g5, g6, g7, g8⟩ := h
  exact ⟨h1 ▸ g1, h2 ▸ g2, h1 ▸ g3, h2 ▸ g4, fun i x => by rw [h3]; exact g5 i x, h4 ▸ g6,
    fun x => by rw [h5]; exact g7 x, fun x hx hl => h6 (g8 x hx hl)⟩

theorem held_set {s : St T} {i : Nat} {p : Pc T} (h : p.held = (s.snd i).held) (j : Nat) :
    (set s.snd i p j).held = (s.snd j).held := by
  by_cases hj : j = i
  · subst hj; simpa using h
  · rw [set_ne _ _ hj]

/-! ## Phases of `Receiver::drop` -/

@[grind] def Rx.dropping : Rx T → Bool
  | .drop1 | .dgot _ | .drop2 | .gone => true
  | _ => false

structure InvD (s : St T) : Prop where
  iff : s.rcvDropped = s.rx.dropping
  gone : s.rx = .gone → s.wq = []

theorem invD_init (n : Nat) : InvD (init n : St T) := by constructor <;> simp [init, Rx.dropping]

theorem invD_tr {n : Nat} {s s' : St T} {e} (h : InvD s) (hs : Tr n s s' e) : InvD s' := by
  obtain ⟨h1, h2⟩ := h
  cases hs <;> constructor <;> grind

/-! ## Preservation of ownership -/

set_option hygiene false in
local macro "own_tac" : tactic => `(tactic|
  (constructor <;> first
    | (intro a b; have t1 := h5 a b; have t2 := h6 a b; grind)
    | grind))

theorem invO_tr {n : Nat} {s s' : St T} {e} {own} (hq : InvQ s) (hd : InvD s) (h : InvO n s own) (hs : Tr n s s' e) :
    ∃ own', InvO n s' own' := by
  have hF := h
  obtain ⟨h1, h2, h3, h4, h5, h6, h7, h8⟩ := h
  cases hs with
  | startSend i v hi =>
    have := idle_sl hq hi
    have hsl : set s.sl i none = s.sl := by funext j; grind
    exact ⟨own, hF.frame rfl rfl (held_set (by rw [hi]; rfl)) hsl rfl id⟩
  | pollOk i v l x hi hc hl hp hx =>
    have t6 := h5 i; have t7 := h6 i x
    exact ⟨set own x (.snd i), by own_tac⟩
  | pollTake i v x f hi hc hl hq' hf =>
    have t6 := h5 i; have t7 := h3 x
    exact ⟨set own x (.snd i), by own_tac⟩
  | try2Take i v x f hi hf =>
    have t6 := h5 i; have t7 := h3 x
    exact ⟨set own x (.snd i), by own_tac⟩
  | drop0 i v k hi =>
    have hk : (Pc.drop1 v k).held = (s.snd i).held := by rw [hi]; cases k <;> rfl
    exact ⟨own, hF.frame rfl rfl (held_set hk) rfl rfl id⟩
  | drop1None i v k hi hx =>
    have hk : (finPc v k).held = (s.snd i).held := by rw [hi]; cases k <;> rfl
    have hsl : set s.sl i none = s.sl := by funext j; grind
    exact ⟨own, hF.frame rfl rfl (held_set hk) hsl rfl id⟩
  | drop1Free i v k x hi hx hq' =>
    have hk : (finPc v k).held = (s.snd i).held := by rw [hi]; cases k <;> rfl
    have hh := held_set hk
    generalize set s.snd i (finPc v k) = snd' at hh ⊢
    have t7 := h6 i x
    exact ⟨set own x .free, by own_tac⟩
  | drop1Grant i v k x j q l hi hx hq' hl =>
    have hk : (finPc v k).held = (s.snd i).held := by rw [hi]; cases k <;> rfl
    obtain ⟨hji, hsj⟩ := head_sl hq hq'
    have hne : j ≠ i := by rintro rfl; rw [hi] at hji; cases hji
    have hh := held_set hk
    generalize set s.snd i (finPc v k) = snd' at hh ⊢
    have t7 := h6 i x
    have t8 := h6 j
    refine ⟨set own x (.sl j), h1, h2, by grind, by grind, by (intro a b; have t1 := h5 a b; grind), ?_, by grind, by grind⟩
    intro a b
    have t1 := h6 a b; have t2 := h6 i b
    simp only [set_apply]
    by_cases haj : a = j
    · subst haj; by_cases hbx : b = x <;> grind
    · by_cases hai : a = i
      · subst hai; by_cases hbx : b = x <;> grind
      · by_cases hbx : b = x <;> grind
  | drop1Bad i v k x j q hi hx hq' hl => have := hq.mem j; grind
  | hold i v x hi => exact ⟨own, hF.frame rfl rfl (held_set (by rw [hi]; rfl)) rfl rfl id⟩
  | written i v x hi =>
    have t6 := h5 i
    exact ⟨set own x .ready, by own_tac⟩
  | tr0Take m x q hr hq' =>
    have t7 := h4 x
    exact ⟨set own x .rx, by own_tac⟩
  | rdFree m x v hr hq' =>
    have t7 := h7 x
    exact ⟨set own x .free, by own_tac⟩
  | rdGrant m x v j q l hr hq' hl =>
    obtain ⟨hji, hsj⟩ := head_sl hq hq'
    have t7 := h7 x
    have t8 := h6 j
    exact ⟨set own x (.sl j), by own_tac⟩
  | rdBad m x v j q hr hq' hl => have := hq.mem j; grind
  | rdrop1Take x q hr hq' =>
    have t7 := h4 x
    exact ⟨set own x .rx, by own_tac⟩
  | dgot x v hr hv =>
    have t7 := h7 x
    have hdr : s.rcvDropped = true := by rw [hd.iff, hr]; rfl
    exact ⟨set own x .lost, by own_tac⟩
  | dropS i hi =>
    refine ⟨own, hF.frame rfl rfl (held_set ?_) rfl rfl id⟩
    rw [hi]; split <;> rfl
  | _ =>
    refine ⟨own, hF.frame rfl rfl ?_ rfl ?_ ?_⟩
    · first
        | (intro; rfl)
        | (apply held_set; simp only [*]; rfl)
    · first | rfl | (simp only [*]; rfl) | grind
    · simp +contextual

end Verif.Channel
