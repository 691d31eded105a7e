import Verif.Channel.Model

/-! # Case analysis of the step function

`Tr` lists the possible transitions with their guards; `trans_of_step` is the inversion lemma used by all invariant
proofs. (Proof device only; the model is `Verif.Channel.step`.) -/

namespace Verif.Channel

variable {T : Type}

@[grind] def finPc (v : T) : Fin → Pc T
  | .ok x => .hold v x
  | .err => .idle
  | .cancelled => .idle

@[grind] def finEv (i : Nat) (v : T) : Fin → List (Ev T)
  | .ok _ => []
  | .err => [.sendErr i v]
  | .cancelled => [.cancelled i v]

inductive Tr (n : Nat) (s : St T) : St T → List (Ev T) → Prop where
  | clone (i j) (hi : s.snd i = .idle) (hj : s.snd j = .absent) :
    Tr n s { s with num := s.num + 1, snd := set s.snd j .idle } []
  | dropS (i) (hi : s.snd i = .idle) :
    Tr n s { s with bad := s.bad || decide (s.num = 0), num := s.num - 1,
                       snd := set s.snd i (if s.num - 1 = 0 then .dropW else .absent) } []
  | startTry (i v) (hi : s.snd i = .idle) : Tr n s { s with snd := set s.snd i (.try0 v) } [.start i v]
  | startSend (i v) (hi : s.snd i = .idle) :
    Tr n s { s with snd := set s.snd i (.snd v), lk := set s.lk i none, sl := set s.sl i none } [.start i v]
  | pollClosed (i v) (hi : s.snd i = .snd v) (hc : s.rcvDropped = true) :
    Tr n s { s with snd := set s.snd i (.drop0 v .err) } []
  | pollOk (i v l x) (hi : s.snd i = .snd v) (hc : s.rcvDropped = false) (hl : s.lk i = some l) (hp : l.popped = true)
      (hx : s.sl i = some x) :
    Tr n s { s with sl := set s.sl i none, lk := set s.lk i none, snd := set s.snd i (.drop0 v (.ok x)) } []
  | pollErr (i v l) (hi : s.snd i = .snd v) (hc : s.rcvDropped = false) (hl : s.lk i = some l) (hp : l.popped = true)
      (hx : s.sl i = none) :
    Tr n s { s with lk := set s.lk i none, snd := set s.snd i (.drop0 v .err) } []
  | pollStay (i v l) (hi : s.snd i = .snd v) (hc : s.rcvDropped = false) (hl : s.lk i = some l)
      (hp : l.popped = false) : Tr n s s []
  | pollWait (i v w) (hi : s.snd i = .snd v) (hc : s.rcvDropped = false) (hl : s.lk i = none)
      (hf : s.wq ≠ [] ∨ s.free = []) :
    Tr n s { s with wq := s.wq ++ [i], lk := set s.lk i (some { w := w, popped := false }) } []
  | pollTake (i v x f) (hi : s.snd i = .snd v) (hc : s.rcvDropped = false) (hl : s.lk i = none)
      (hq : s.wq = []) (hf : s.free = f ++ [x]) :
    Tr n s { s with free := f, snd := set s.snd i (.drop0 v (.ok x)) } []
  | cancel (i v) (hi : s.snd i = .snd v) : Tr n s { s with snd := set s.snd i (.drop0 v .cancelled) } []
  | try0Full (i v) (hi : s.snd i = .try0 v) (hq : s.wq ≠ []) :
    Tr n s { s with snd := set s.snd i .idle } [.tryFull i v]
  | try0Go (i v) (hi : s.snd i = .try0 v) (hq : s.wq = []) : Tr n s { s with snd := set s.snd i (.try1 v) } []
  | try1Closed (i v) (hi : s.snd i = .try1 v) (hc : s.rcvDropped = true) :
    Tr n s { s with snd := set s.snd i .idle } [.tryClosed i v]
  | try1Go (i v) (hi : s.snd i = .try1 v) (hc : s.rcvDropped = false) :
    Tr n s { s with snd := set s.snd i (.try2 v) } []
  | try2Take (i v x f) (hi : s.snd i = .try2 v) (hf : s.free = x :: f) :
    Tr n s { s with free := f, snd := set s.snd i (.hold v x) } []
  | try2Full (i v) (hi : s.snd i = .try2 v) (hf : s.free = []) :
    Tr n s { s with snd := set s.snd i .idle } [.tryFull i v]
  | drop0 (i v k) (hi : s.snd i = .drop0 v k) :
    Tr n s { s with wq := s.wq.erase i, lk := set s.lk i none, snd := set s.snd i (.drop1 v k) } []
  | drop1None (i v k) (hi : s.snd i = .drop1 v k) (hx : s.sl i = none) :
    Tr n s { s with sl := set s.sl i none, snd := set s.snd i (finPc v k) } (finEv i v k)
  | drop1Free (i v k x) (hi : s.snd i = .drop1 v k) (hx : s.sl i = some x) (hq : s.wq = []) :
    Tr n s { s with sl := set s.sl i none, free := s.free ++ [x], bad := s.bad || decide (n ≤ s.free.length),
                       snd := set s.snd i (finPc v k) } (finEv i v k)
  | drop1Grant (i v k x j q l) (hi : s.snd i = .drop1 v k) (hx : s.sl i = some x) (hq : s.wq = j :: q)
      (hl : s.lk j = some l) :
    Tr n s { s with sl := set (set s.sl i none) j (some x), wq := q,
                       lk := set s.lk j (some { l with popped := true }),
                       snd := set s.snd i (finPc v k) } (.wokeS j l.w :: finEv i v k)
  | drop1Bad (i v k x j q) (hi : s.snd i = .drop1 v k) (hx : s.sl i = some x) (hq : s.wq = j :: q)
      (hl : s.lk j = none) :
    Tr n s { s with sl := set s.sl i none, bad := true, snd := set s.snd i (finPc v k) } (finEv i v k)
  | hold (i v x) (hi : s.snd i = .hold v x) :
    Tr n s { s with slots := set s.slots x (some v), bad := s.bad || (s.slots x).isSome,
                       snd := set s.snd i (.written v x) } []
  | written (i v x) (hi : s.snd i = .written v x) :
    Tr n s { s with ready := s.ready ++ [x], bad := s.bad || decide (n ≤ s.ready.length),
                       snd := set s.snd i .pushed } [.enq i v]
  | pushedN (i) (hi : s.snd i = .pushed) (hw : s.rwk = none) : Tr n s { s with snd := set s.snd i .idle } [.sendOk i]
  | pushedS (i w) (hi : s.snd i = .pushed) (hw : s.rwk = some w) :
    Tr n s { s with rwk := none, snd := set s.snd i .idle } [.wokeR w, .sendOk i]
  | dropWN (i) (hi : s.snd i = .dropW) (hw : s.rwk = none) : Tr n s { s with snd := set s.snd i .absent } []
  | dropWS (i w) (hi : s.snd i = .dropW) (hw : s.rwk = some w) :
    Tr n s { s with rwk := none, snd := set s.snd i .absent } [.wokeR w]
  | sQuery (i) (hi : s.snd i = .idle) :
    Tr n s s [.sIsClosed s.rcvDropped, .sIsFull (decide (s.free = [])), .sIsEmpty (decide (s.free.length = n))]
  | startTryRecv (hr : s.rx = .idle) : Tr n s { s with rx := .tr0 none } []
  | pollRecv (w) (hr : s.rx = .idle ∨ ∃ w', s.rx = .pend w') : Tr n s { s with rx := .poll0 w } []
  | cancelRecv (w) (hr : s.rx = .pend w) : Tr n s { s with rx := .idle } []
  | dropR (hr : s.rx = .idle) : Tr n s { s with rx := .drop0 } []
  | regSame (w) (hr : s.rx = .poll0 w) (hw : s.rwk = some w) : Tr n s { s with rx := .tr0 (some w) } [.reg w]
  | regRepl (w w') (hr : s.rx = .poll0 w) (hw : s.rwk = some w') (hne : w' ≠ w) :
    Tr n s { s with rwk := some w, rx := .tr0 (some w) } [.wokeR w', .reg w]
  | regNew (w) (hr : s.rx = .poll0 w) (hw : s.rwk = none) :
    Tr n s { s with rwk := some w, rx := .tr0 (some w) } [.reg w]
  | tr0Take (m x q) (hr : s.rx = .tr0 m) (hq : s.ready = x :: q) :
    Tr n s { s with ready := q, rx := .got m x } []
  | tr0Empty (m) (hr : s.rx = .tr0 m) (hq : s.ready = []) : Tr n s { s with rx := .empty m } []
  | got (m x v) (hr : s.rx = .got m x) (hv : s.slots x = some v) :
    Tr n s { s with slots := set s.slots x none, rx := .rd m x v } []
  | gotBad (m x) (hr : s.rx = .got m x) (hv : s.slots x = none) : Tr n s { s with bad := true } []
  | rdFree (m x v) (hr : s.rx = .rd m x v) (hq : s.wq = []) :
    Tr n s { s with free := s.free ++ [x], bad := s.bad || decide (n ≤ s.free.length), rx := .idle } [.recvd v]
  | rdGrant (m x v j q l) (hr : s.rx = .rd m x v) (hq : s.wq = j :: q) (hl : s.lk j = some l) :
    Tr n s { s with wq := q, lk := set s.lk j (some { l with popped := true }), sl := set s.sl j (some x),
                       rx := .idle } [.wokeS j l.w, .recvd v]
  | rdBad (m x v j q) (hr : s.rx = .rd m x v) (hq : s.wq = j :: q) (hl : s.lk j = none) :
    Tr n s { s with bad := true, rx := .idle } [.recvd v]
  | emptyClosed (m) (hr : s.rx = .empty m) (hn : s.num = 0) : Tr n s { s with rx := .idle } [.recvNoSender]
  | emptyTry (hr : s.rx = .empty none) (hn : s.num ≠ 0) : Tr n s { s with rx := .idle } [.recvEmpty]
  | emptyPend (w) (hr : s.rx = .empty (some w)) (hn : s.num ≠ 0) : Tr n s { s with rx := .pend w } [.recvPending]
  | rdrop0 (hr : s.rx = .drop0) : Tr n s { s with rcvDropped := true, rx := .drop1 } []
  | rdrop1Take (x q) (hr : s.rx = .drop1) (hq : s.ready = q ++ [x]) :
    Tr n s { s with ready := q, rx := .dgot x } []
  | rdrop1Done (hr : s.rx = .drop1) (hq : s.ready = []) : Tr n s { s with rx := .drop2 } []
  | dgot (x v) (hr : s.rx = .dgot x) (hv : s.slots x = some v) :
    Tr n s { s with slots := set s.slots x none, rx := .drop1 } [.discarded v]
  | dgotBad (x) (hr : s.rx = .dgot x) (hv : s.slots x = none) : Tr n s { s with bad := true } []
  | drop2Pop (j q l) (hr : s.rx = .drop2) (hq : s.wq = j :: q) (hl : s.lk j = some l) :
    Tr n s { s with wq := q, lk := set s.lk j (some { l with popped := true }) } [.wokeS j l.w]
  | drop2Bad (j q) (hr : s.rx = .drop2) (hq : s.wq = j :: q) (hl : s.lk j = none) :
    Tr n s { s with bad := true } []
  | drop2Done (hr : s.rx = .drop2) (hq : s.wq = []) : Tr n s { s with rx := .gone } []
  | rQuery (hr : s.rx = .idle) :
    Tr n s s [.rIsClosed (decide (s.num = 0)), .rIsFull (decide (s.ready.length = n)),
                 .rIsEmpty (decide (s.ready = []))]

theorem getLast?_split {l : List Nat} {x : Nat} (h : l.getLast? = some x) : l = l.dropLast ++ [x] := by
  rcases List.eq_nil_or_concat l with rfl | ⟨q, y, rfl⟩
  · simp at h
  · simp at h; subst h; simp

theorem trans_pollSend {n : Nat} {s : St T} {i w : Nat} {v : T} (hi : s.snd i = .snd v) :
    Tr n s (pollSend s i v w) [] := by
  unfold pollSend
  by_cases hc : s.rcvDropped = true
  · rw [if_pos hc]; exact .pollClosed i v hi hc
  · have hc' : s.rcvDropped = false := by simpa using hc
    rw [if_neg hc]
    cases hl : s.lk i with
    | some l =>
      simp only
      by_cases hp : l.popped = true
      · rw [if_pos hp]
        cases hx : s.sl i with
        | some x => exact .pollOk i v l x hi hc' hl hp hx
        | none => exact .pollErr i v l hi hc' hl hp hx
      · have hp' : l.popped = false := by simpa using hp
        rw [if_neg hp]
        exact .pollStay i v l hi hc' hl hp'
    | none =>
      simp only
      by_cases hf : s.wq ≠ [] ∨ s.free = []
      · rw [if_pos hf]; exact .pollWait i v w hi hc' hl hf
      · rw [if_neg hf]
        have hf' : s.wq = [] ∧ s.free ≠ [] := by
          refine ⟨Classical.byContradiction fun h => hf (.inl h), fun h => hf (.inr h)⟩
        cases hg : s.free.getLast? with
        | some x => exact .pollTake i v x _ hi hc' hl hf'.1 (getLast?_split hg)
        | none => exact absurd (List.getLast?_eq_none_iff.1 hg) hf'.2

theorem trans_of_step {n : Nat} {s s' : St T} {a : Act T} {e} (hs : step n s a = some (s', e)) : Tr n s s' e := by
  cases a with
  | clone i j =>
    simp only [step] at hs; split at hs <;> cases hs
    exact .clone i j ‹_› ‹_›
  | dropS i => simp only [step] at hs; split at hs <;> cases hs; exact .dropS i ‹_›
  | startTry i v => simp only [step] at hs; split at hs <;> cases hs; exact .startTry i v ‹_›
  | startSend i v => simp only [step] at hs; split at hs <;> cases hs; exact .startSend i v ‹_›
  | poll i w => simp only [step] at hs; split at hs <;> cases hs; exact trans_pollSend ‹_›
  | cancel i => simp only [step] at hs; split at hs <;> cases hs; exact .cancel i _ ‹_›
  | go i =>
    simp only [step, goS] at hs
    split at hs
    · cases hs
    · cases hs
    · cases hs
    · split at hs <;> cases hs
      · exact .try0Full i _ ‹_› ‹_›
      · exact .try0Go i _ ‹_› (Classical.not_not.1 ‹_›)
    · split at hs <;> cases hs
      · exact .try1Closed i _ ‹_› ‹_›
      · exact .try1Go i _ ‹_› (Bool.eq_false_iff.2 ‹_›)
    · split at hs <;> cases hs
      · exact .try2Take i _ _ _ ‹_› ‹_›
      · exact .try2Full i _ ‹_› ‹_›
    · cases hs; exact .drop0 i _ _ ‹_›
    · rename_i v k hi
      cases hx : s.sl i with
      | none =>
        simp only [hx] at hs
        have := Tr.drop1None (n := n) i v k hi hx
        cases k <;> cases hs <;> exact this
      | some x =>
        simp only [hx, returnFreeSlot] at hs
        cases hq : s.wq with
        | nil =>
          simp only [hq] at hs
          have := Tr.drop1Free (n := n) i v k x hi hx hq
          cases k <;> cases hs <;> simpa [finPc, finEv, hq] using this
        | cons j q =>
          cases hl : s.lk j with
          | none =>
            simp only [hq, hl] at hs
            have := Tr.drop1Bad (n := n) i v k x j q hi hx hq hl
            cases k <;> cases hs <;> simpa [finPc, finEv, hq, hl] using this
          | some l =>
            simp only [hq, hl] at hs
            have := Tr.drop1Grant (n := n) i v k x j q l hi hx hq hl
            cases k <;> cases hs <;> exact this
    · cases hs; exact .hold i _ _ ‹_›
    · cases hs; exact .written i _ _ ‹_›
    · cases hw : s.rwk with
      | none => simp only [wakeR, hw] at hs; cases hs; simpa [hw] using Tr.pushedN (n := n) i ‹_› hw
      | some w => simp only [wakeR, hw] at hs; cases hs; exact .pushedS i w ‹_› hw
    · cases hw : s.rwk with
      | none => simp only [wakeR, hw] at hs; cases hs; simpa [hw] using Tr.dropWN (n := n) i ‹_› hw
      | some w => simp only [wakeR, hw] at hs; cases hs; exact .dropWS i w ‹_› hw
  | sQuery i => simp only [step] at hs; split at hs <;> cases hs; exact .sQuery i ‹_›
  | startTryRecv => simp only [step] at hs; split at hs <;> cases hs; exact .startTryRecv ‹_›
  | pollRecv w =>
    simp only [step] at hs; split at hs <;> cases hs
    · exact .pollRecv w (.inl ‹_›)
    · exact .pollRecv w (.inr ⟨_, ‹_›⟩)
  | cancelRecv => simp only [step] at hs; split at hs <;> cases hs; exact .cancelRecv _ ‹_›
  | dropR => simp only [step] at hs; split at hs <;> cases hs; exact .dropR ‹_›
  | goR =>
    simp only [step, goR] at hs
    split at hs
    · cases hs
    · cases hs
    · cases hs
    · rename_i w hr
      simp only [register] at hs
      cases hw : s.rwk with
      | none => simp only [hw] at hs; cases hs; exact .regNew w hr hw
      | some w2 =>
        simp only [hw] at hs
        by_cases h : w2 = w
        · subst h; simp only [if_true] at hs; cases hs; simpa [hw] using Tr.regSame (n := n) w2 hr hw
        · simp only [h, if_false] at hs; cases hs; exact .regRepl w w2 hr hw h
    · split at hs <;> cases hs
      · exact .tr0Take _ _ _ ‹_› ‹_›
      · exact .tr0Empty _ ‹_› ‹_›
    · split at hs <;> cases hs
      · exact .got _ _ _ ‹_› ‹_›
      · exact .gotBad _ _ ‹_› ‹_›
    · rename_i m x v hr
      simp only [returnFreeSlot] at hs
      cases hq : s.wq with
      | nil => simp only [hq] at hs; cases hs; simpa [hq] using Tr.rdFree (n := n) m x v hr hq
      | cons j q =>
        cases hl : s.lk j with
        | none =>
          simp only [hq, hl] at hs; cases hs
          simpa [hq, hl] using Tr.rdBad (n := n) m x v j q hr hq hl
        | some l => simp only [hq, hl] at hs; cases hs; exact .rdGrant m x v j q l hr hq hl
    · rename_i m hr
      split at hs
      · cases hs; exact .emptyClosed m hr ‹_›
      · cases m with
        | none => simp only [emptyResult] at hs; cases hs; exact .emptyTry hr ‹_›
        | some w => simp only [emptyResult] at hs; cases hs; exact .emptyPend w hr ‹_›
    · cases hs; exact .rdrop0 ‹_›
    · split at hs <;> cases hs
      · exact .rdrop1Take _ _ ‹_› (getLast?_split ‹_›)
      · exact .rdrop1Done ‹_› (List.getLast?_eq_none_iff.1 ‹_›)
    · split at hs <;> cases hs
      · exact .dgot _ _ ‹_› ‹_›
      · exact .dgotBad _ ‹_› ‹_›
    · split at hs
      · rename_i j q hq
        cases hl : s.lk j with
        | none => simp only [hl] at hs; cases hs; exact .drop2Bad j q ‹_› hq hl
        | some l => simp only [hl] at hs; cases hs; exact .drop2Pop j q l ‹_› hq hl
      · cases hs; exact .drop2Done ‹_› ‹_›
  | rQuery => simp only [step] at hs; split at hs <;> cases hs; exact .rQuery ‹_›

end Verif.Channel
