import Verif.Channel.Order

/-! # Invariants that relate the state to the history: receiver waker (C05) and current operations (C07) -/

namespace Verif.Channel

variable {T : Type}

theorem regState_append (r : Option (Nat × Bool)) (a b : List (Ev T)) :
    regState r (a ++ b) = regState (regState r a) b := by
  fun_induction regState r a <;> simp_all [regState]

theorem opState_append (i : Nat) (r : Option (T × List T)) (a b : List (Ev T)) :
    opState i r (a ++ b) = opState i (opState i r a) b := by
  fun_induction opState i r a <;> simp_all [opState]

/-- waker of the `recv` poll in progress (after registration) or pending -/
@[grind] def Rx.wk : Rx T → Option Nat
  | .tr0 m | .got m _ | .rd m _ _ | .empty m => m
  | .pend w => some w
  | _ => none

@[grind] def Rx.late : Rx T → Bool
  | .empty _ | .pend _ => true
  | _ => false

@[grind] def Rx.isPend : Rx T → Bool
  | .pend _ => true
  | _ => false

def InvW (s : St T) (tr : List (Ev T)) : Prop :=
  ∀ w, s.rx.wk = some w → ∃ b, regState none tr = some (w, b) ∧ (b = false → s.rwk = some w ∧
    (s.rx.late = true → s.ready = [] ∨ ∃ i, s.snd i = .pushed) ∧
    (s.rx.isPend = true → s.num ≠ 0 ∨ ∃ i, s.snd i = .dropW))

theorem ex_set {s : St T} {j : Nat} {p q : Pc T} (h : ∃ i, s.snd i = p) (hj : s.snd j ≠ p) : ∃ i, set s.snd j q i = p := by
  obtain ⟨i, hi⟩ := h
  have : i ≠ j := by rintro rfl; exact hj hi
  exact ⟨i, by rw [set_ne _ _ this]; exact hi⟩

theorem InvW.frame {s s' : St T} {tr e : List (Ev T)} (h : InvW s tr) (he : ∀ r, regState r e = r)
    (h1 : ∀ w, s'.rx.wk = some w → s.rx.wk = some w) (h2 : s'.rwk = s.rwk)
    (h3 : s.rx.late = true → s'.ready = s.ready ∨ ∃ i, s'.snd i = .pushed)
    (h4 : s'.rx.late = s.rx.late) (h5 : s'.rx.isPend = s.rx.isPend) (h6 : s'.num ≠ 0 ∨ s.num = 0 ∨ ∃ i, s'.snd i = .dropW)
    (h7 : (∃ i, s.snd i = .pushed) → ∃ i, s'.snd i = .pushed) (h8 : (∃ i, s.snd i = .dropW) → ∃ i, s'.snd i = .dropW) :
    InvW s' (tr ++ e) := by
  intro w hw
  obtain ⟨b, hb, hc⟩ := h w (h1 w hw)
  refine ⟨b, by rw [regState_append, he]; exact hb, ?_⟩
  intro hb'
  obtain ⟨c1, c2, c3⟩ := hc hb'
  refine ⟨h2.trans c1, ?_, ?_⟩
  · intro hl; rw [h4] at hl
    rcases c2 hl with c | c
    · rcases h3 hl with h | h
      · exact .inl (h.trans c)
      · exact .inr h
    · exact .inr (h7 c)
  · intro hp; rw [h5] at hp
    rcases c3 hp with c | c
    · rcases h6 with h | h | h
      · exact .inl h
      · exact absurd h c
      · exact .inr h
    · exact .inr (h8 c)

theorem regState_finEv (i : Nat) (v : T) (k : Fin) (r) : regState r (finEv i v k) = r := by
  cases k <;> cases r <;> rfl

theorem regState_finEv' (i j w : Nat) (v : T) (k : Fin) (r) : regState r (.wokeS j w :: finEv i v k) = r := by
  cases k <;> cases r <;> rfl

theorem regState_woke (w w' : Nat) (b : Bool) (tl : List (Ev T)) (h : ∀ r, regState r tl = r) :
    regState (some (w, b)) (.wokeR w' :: tl) = some (w, b || w == w') := by
  rw [regState, h]

theorem invW_tr {n : Nat} {s s' : St T} {tr e} (h : InvW s tr) (hs : Tr n s s' e) : InvW s' (tr ++ e) := by
  cases hs with
  | pushedS i w hi hw =>
    intro w' hw'
    obtain ⟨b, hb, hc⟩ := h w' hw'
    refine ⟨b || w' == w, by rw [regState_append, hb]; rfl, ?_⟩
    intro hf
    simp at hf
    have := (hc hf.1).1
    rw [hw] at this; cases this; exact absurd rfl hf.2
  | dropWS i w hi hw =>
    intro w' hw'
    obtain ⟨b, hb, hc⟩ := h w' hw'
    refine ⟨b || w' == w, by rw [regState_append, hb]; rfl, ?_⟩
    intro hf
    simp at hf
    have := (hc hf.1).1
    rw [hw] at this; cases this; exact absurd rfl hf.2
  | pushedN i hi hw =>
    intro w' hw'
    obtain ⟨b, hb, hc⟩ := h w' hw'
    refine ⟨b, by rw [regState_append, hb]; cases b <;> rfl, ?_⟩
    intro hf; have := (hc hf).1; rw [hw] at this; cases this
  | dropWN i hi hw =>
    intro w' hw'
    obtain ⟨b, hb, hc⟩ := h w' hw'
    refine ⟨b, by rw [regState_append, hb]; cases b <;> rfl, ?_⟩
    intro hf; have := (hc hf).1; rw [hw] at this; cases this
  | regSame w hr hw =>
    intro w' hw'; cases hw'
    refine ⟨false, by rw [regState_append]; cases regState none tr <;> rfl, fun _ => ⟨hw, ?_, ?_⟩⟩ <;> simp [Rx.late, Rx.isPend]
  | regNew w hr hw =>
    intro w' hw'; cases hw'
    refine ⟨false, by rw [regState_append]; cases regState none tr <;> rfl, fun _ => ⟨rfl, ?_, ?_⟩⟩ <;> simp [Rx.late, Rx.isPend]
  | regRepl w w2 hr hw hne =>
    intro w' hw'; cases hw'
    refine ⟨false, by rw [regState_append]; cases regState none tr <;> rfl, fun _ => ⟨rfl, ?_, ?_⟩⟩ <;> simp [Rx.late, Rx.isPend]
  | tr0Empty m hr hq =>
    intro w hw; cases (show m = some w from hw)
    obtain ⟨b, hb, hc⟩ := h w (by rw [hr]; rfl)
    refine ⟨b, by rw [List.append_nil]; exact hb, fun hf => ⟨(hc hf).1, fun _ => .inl hq, by simp [Rx.isPend]⟩⟩
  | emptyPend w hr hn =>
    intro w' hw'; cases hw'
    obtain ⟨b, hb, hc⟩ := h w (by rw [hr]; rfl)
    refine ⟨b, by rw [regState_append, hb]; cases b <;> rfl, fun hf => ⟨(hc hf).1, ?_, fun _ => .inl hn⟩⟩
    intro _; exact (hc hf).2.1 (by rw [hr]; rfl)
  | written i v x hi =>
    refine h.frame (fun r => by cases r <;> rfl) (fun _ => id) rfl (fun _ => .inr ⟨i, by simp⟩) rfl rfl ?_ (fun _ => ⟨i, by simp⟩)
      (fun hh => ex_set hh (by rw [hi]; simp))
    rcases Nat.eq_zero_or_pos s.num with h0 | h0
    · exact .inr (.inl h0)
    · exact .inl (by show s.num ≠ 0; omega)
  | dropS i hi =>
    refine h.frame (fun r => by cases r <;> rfl) (fun _ => id) rfl (fun _ => .inl rfl) rfl rfl ?_ (fun hh => ex_set hh (by rw [hi]; simp))
      (fun hh => ex_set hh (by rw [hi]; simp))
    by_cases h0 : s.num - 1 = 0
    · exact .inr (.inr ⟨i, by simp [h0]⟩)
    · exact .inl h0
  | tr0Take m x q hr hq =>
    intro w hw; cases (show m = some w from hw)
    obtain ⟨b, hb, hc⟩ := h w (by rw [hr]; rfl)
    refine ⟨b, by rw [List.append_nil]; exact hb, fun hf => ⟨(hc hf).1, by simp [Rx.late], by simp [Rx.isPend]⟩⟩
  | got m x v hr hv =>
    intro w hw; cases (show m = some w from hw)
    obtain ⟨b, hb, hc⟩ := h w (by rw [hr]; rfl)
    refine ⟨b, by rw [List.append_nil]; exact hb, fun hf => ⟨(hc hf).1, by simp [Rx.late], by simp [Rx.isPend]⟩⟩
  | rdFree m x v hr hq => intro w hw; cases hw
  | rdGrant m x v j q l hr hq hl => intro w hw; cases hw
  | rdBad m x v j q hr hq hl => intro w hw; cases hw
  | emptyClosed m hr hn => intro w hw; cases hw
  | emptyTry hr hn => intro w hw; cases hw
  | startTryRecv hr => intro w hw; cases hw
  | pollRecv w hr => intro w hw; cases hw
  | cancelRecv w hr => intro w hw; cases hw
  | dropR hr => intro w hw; cases hw
  | rdrop0 hr => intro w hw; cases hw
  | rdrop1Take x q hr hq => intro w hw; cases hw
  | rdrop1Done hr hq => intro w hw; cases hw
  | dgot x v hr hv => intro w hw; cases hw
  | drop2Done hr hq => intro w hw; cases hw
  | drop1None i v k hi hx =>
    refine h.frame (regState_finEv _ _ _) (fun _ => id) rfl (fun _ => .inl rfl) rfl rfl (by show s.num ≠ 0 ∨ _; omega)
      (fun hh => ex_set hh (by rw [hi]; simp)) (fun hh => ex_set hh (by rw [hi]; simp))
  | drop1Free i v k x hi hx hq =>
    refine h.frame (regState_finEv _ _ _) (fun _ => id) rfl (fun _ => .inl rfl) rfl rfl (by show s.num ≠ 0 ∨ _; omega)
      (fun hh => ex_set hh (by rw [hi]; simp)) (fun hh => ex_set hh (by rw [hi]; simp))
  | drop1Bad i v k x j q hi hx hq hl =>
    refine h.frame (regState_finEv _ _ _) (fun _ => id) rfl (fun _ => .inl rfl) rfl rfl (by show s.num ≠ 0 ∨ _; omega)
      (fun hh => ex_set hh (by rw [hi]; simp)) (fun hh => ex_set hh (by rw [hi]; simp))
  | drop1Grant i v k x j q l hi hx hq hl =>
    refine h.frame (regState_finEv' _ _ _ _ _) (fun _ => id) rfl (fun _ => .inl rfl) rfl rfl (by show s.num ≠ 0 ∨ _; omega)
      (fun hh => ex_set hh (by rw [hi]; simp)) (fun hh => ex_set hh (by rw [hi]; simp))
  | _ =>
    refine h.frame (fun r => by cases r <;> rfl) (fun _ => id) rfl (fun _ => .inl rfl) rfl rfl ?_ ?_ ?_
    · first
        | (show s.num ≠ 0 ∨ s.num = 0 ∨ _; omega)
        | (show s.num + 1 ≠ 0 ∨ _; omega)
    · first | exact id | (intro hh; refine ex_set hh ?_; simp only [*]; simp)
    · first | exact id | (intro hh; refine ex_set hh ?_; simp only [*]; simp)

theorem reach_invW {n : Nat} {s : St T} {tr : List (Ev T)} (h : Reach n s tr) : InvW s tr :=
  (reach_induct (P := InvW) (by intro w hw; simp [init, Rx.wk] at hw) (fun _ _ _ _ _ h ht => invW_tr h ht) h).2

/-! ## Current operation of a sender -/

@[grind] def Pc.val : Pc T → Option T
  | .try0 v | .try1 v | .try2 v | .snd v | .drop0 v _ | .drop1 v _ | .hold v _ | .written v _ => some v
  | _ => none

/-- What the history says about sender `i`'s current operation. -/
def InvP (i : Nat) (s : St T) (tr : List (Ev T)) : Prop :=
  (∀ v, (s.snd i).val = some v → opState i none tr = some (v, [])) ∧
  (s.snd i = .pushed → ∃ v, opState i none tr = some (v, [v]))

theorem InvP.frame {i : Nat} {s s' : St T} {tr e : List (Ev T)} (h : InvP i s tr) (he : ∀ r, opState i r e = r)
    (h1 : ∀ v, (s'.snd i).val = some v → (s.snd i).val = some v) (h2 : s'.snd i = .pushed → s.snd i = .pushed) :
    InvP i s' (tr ++ e) := by
  refine ⟨fun v hv => ?_, fun hp => ?_⟩
  · rw [opState_append, he]; exact h.1 v (h1 v hv)
  · rw [opState_append, he]; exact h.2 (h2 hp)

theorem opState_finEv (i j : Nat) (v : T) (k : Fin) (r) : opState i r (finEv j v k) = r := by
  cases k <;> cases r <;> rfl
theorem opState_finEv' (i j l w : Nat) (v : T) (k : Fin) (r) : opState i r (.wokeS l w :: finEv j v k) = r := by
  cases k <;> cases r <;> rfl

theorem opState_start (i j : Nat) (v : T) (r) : opState i r [.start j v] = if j = i then some (v, []) else r := by
  cases r <;> rfl
theorem opState_enq (i j : Nat) (v v' : T) (vs) :
    opState i (some (v, vs)) [.enq j v'] = some (v, if j = i then vs ++ [v'] else vs) := rfl
theorem opState_enq_none (i j : Nat) (v' : T) : opState i none [.enq j v'] = none := rfl

theorem InvP.other {i j : Nat} {s s' : St T} {tr e : List (Ev T)} {p : Pc T} (h : InvP i s tr)
    (he : j ≠ i → ∀ r, opState i r e = r) (hs : s'.snd = set s.snd j p)
    (hown : j = i → InvP i s' (tr ++ e)) : InvP i s' (tr ++ e) := by
  by_cases hj : j = i
  · exact hown hj
  · refine h.frame (he hj) ?_ ?_ <;> rw [hs, set_ne _ _ (fun h => hj h.symm)] <;> simp

theorem invP_tr {n i : Nat} {s s' : St T} {tr e} (h : InvP i s tr) (hs : Tr n s s' e) : InvP i s' (tr ++ e) := by
  cases hs with
  | startTry j v hj =>
    refine h.other (j := j) (fun hne r => by rw [opState_start, if_neg hne]) rfl ?_
    rintro rfl
    refine ⟨fun w hw => ?_, by simp⟩
    simp [Pc.val] at hw; subst hw
    rw [opState_append, opState_start, if_pos rfl]
  | startSend j v hj =>
    refine h.other (j := j) (fun hne r => by rw [opState_start, if_neg hne]) rfl ?_
    rintro rfl
    refine ⟨fun w hw => ?_, by simp⟩
    simp [Pc.val] at hw; subst hw
    rw [opState_append, opState_start, if_pos rfl]
  | written j v x hj =>
    refine h.other (j := j) (fun hne r => ?_) rfl ?_
    · rcases r with _ | ⟨a, b⟩
      · rfl
      · rw [opState_enq, if_neg hne]
    · rintro rfl
      refine ⟨by simp [Pc.val], fun _ => ⟨v, ?_⟩⟩
      rw [opState_append, h.1 v (by rw [hj]; rfl), opState_enq, if_pos rfl]; rfl
  | dropS j hj =>
    refine h.other (j := j) (fun _ r => by cases r <;> rfl) rfl ?_
    rintro rfl
    refine h.frame (fun r => by cases r <;> rfl) ?_ ?_
    · intro v; simp only [set_same]; split <;> simp [Pc.val]
    · simp only [set_same]; split <;> simp
  | drop1None j v k hj hx =>
    refine h.other (j := j) (fun _ => opState_finEv _ _ _ _) rfl ?_
    rintro rfl
    refine h.frame (opState_finEv _ _ _ _) ?_ ?_
    · intro w; rw [hj]; simp only [set_same]; cases k <;> simp [Pc.val, finPc]
    · simp only [set_same]; cases k <;> simp [finPc]
  | drop1Free j v k x hj hx hq =>
    refine h.other (j := j) (fun _ => opState_finEv _ _ _ _) rfl ?_
    rintro rfl
    refine h.frame (opState_finEv _ _ _ _) ?_ ?_
    · intro w; rw [hj]; simp only [set_same]; cases k <;> simp [Pc.val, finPc]
    · simp only [set_same]; cases k <;> simp [finPc]
  | drop1Bad j v k x j' q hj hx hq hl =>
    refine h.other (j := j) (fun _ => opState_finEv _ _ _ _) rfl ?_
    rintro rfl
    refine h.frame (opState_finEv _ _ _ _) ?_ ?_
    · intro w; rw [hj]; simp only [set_same]; cases k <;> simp [Pc.val, finPc]
    · simp only [set_same]; cases k <;> simp [finPc]
  | drop1Grant j v k x j' q l hj hx hq hl =>
    refine h.other (j := j) (fun _ => opState_finEv' _ _ _ _ _ _) rfl ?_
    rintro rfl
    refine h.frame (opState_finEv' _ _ _ _ _ _) ?_ ?_
    · intro w; rw [hj]; simp only [set_same]; cases k <;> simp [Pc.val, finPc]
    · simp only [set_same]; cases k <;> simp [finPc]
  | clone j j' hj hj' =>
    refine h.other (j := j') (fun _ r => by cases r <;> rfl) rfl ?_
    rintro rfl
    refine h.frame (fun r => by cases r <;> rfl) ?_ ?_ <;> simp [Pc.val]
  | _ =>
    first
      | (refine h.frame (fun r => by cases r <;> rfl) (fun _ => id) id; done)
      | (rename_i j v _ _ _ _ hj _ _ _ _
         refine h.other (j := j) (fun _ r => by cases r <;> rfl) rfl ?_
         rintro rfl
         refine h.frame (fun r => by cases r <;> rfl) ?_ ?_ <;> simp [Pc.val, *]; done)
      | (refine h.other (fun _ r => by cases r <;> rfl) rfl ?_
         rintro rfl
         refine h.frame (fun r => by cases r <;> rfl) ?_ ?_ <;> simp [Pc.val, *])

theorem reach_invP {n : Nat} {s : St T} {tr : List (Ev T)} (i : Nat) (h : Reach n s tr) : InvP i s tr :=
  (reach_induct (P := InvP i) (by
    constructor
    · intro v; simp only [init]; split <;> simp [Pc.val]
    · simp only [init]; split <;> simp) (fun _ _ _ _ _ h ht => invP_tr h ht) h).2

end Verif.Channel
