import Verif.Channel.Inv2
import Verif.Channel.Spec

/-! # The order invariant (C01) and the per-operation history -/

namespace Verif.Channel

variable {T : Type}

@[simp] theorem sentVals_append (a b : List (Ev T)) : sentVals (a ++ b) = sentVals a ++ sentVals b := by
  simp [sentVals]
@[simp] theorem recvVals_append (a b : List (Ev T)) : recvVals (a ++ b) = recvVals a ++ recvVals b := by
  simp [recvVals]
@[simp] theorem discardedVals_append (a b : List (Ev T)) :
    discardedVals (a ++ b) = discardedVals a ++ discardedVals b := by
  simp [discardedVals]

theorem filterMap_congr' {l : List Nat} {f g : Nat → Option T} (h : ∀ x ∈ l, f x = g x) :
    l.filterMap f = l.filterMap g := by
  induction l with
  | nil => rfl
  | cons a l ih =>
    simp only [List.filterMap_cons, h a List.mem_cons_self, ih (fun x hx => h x (List.mem_cons_of_mem _ hx))]

/-- a value-neutral transition -/
theorem finEv_sent (i : Nat) (v : T) (k : Fin) : sentVals (finEv i v k) = [] ∧ recvVals (finEv i v k) = [] ∧
    discardedVals (finEv i v k) = [] := by
  cases k <;> simp [finEv, sentVals, recvVals, discardedVals]

/-- Order while the receiver is alive, and conservation always. -/
def Ordered (s : St T) (tr : List (Ev T)) : Prop :=
  (s.rcvDropped = false → sentVals tr = recvVals tr ++ inReceive s ++ queued s) ∧
  (sentVals tr).Perm (recvVals tr ++ discardedVals tr ++ inReceive s ++ queued s)

theorem Ordered.frame {s s' : St T} {tr e : List (Ev T)} (h : Ordered s tr) (h0 : s'.rcvDropped = false → s.rcvDropped = false)
    (h1 : sentVals e = []) (h2 : recvVals e = []) (h2' : discardedVals e = []) (h3 : queued s' = queued s)
    (h4 : inReceive s' = inReceive s) : Ordered s' (tr ++ e) := by
  obtain ⟨g1, g2⟩ := h
  constructor
  · intro hd
    simp only [sentVals_append, recvVals_append, h1, h2, h3, h4, List.append_nil]
    exact g1 (h0 hd)
  · simp only [sentVals_append, recvVals_append, discardedVals_append, h1, h2, h2', h3, h4, List.append_nil]
    exact g2

theorem inReceive_nil {s : St T} (h : s.rx.held = none) : inReceive s = [] := by
  unfold inReceive
  cases hr : s.rx <;> simp_all [Rx.held]

theorem ordered_init (n : Nat) : Ordered (init n : St T) [] := by
  constructor <;> simp [init, sentVals, recvVals, discardedVals, inReceive, queued]

theorem ordered_tr {n : Nat} {s s' : St T} {tr e} (hI : Inv n s) (h : Ordered s tr) (hs : Tr n s s' e) :
    Ordered s' (tr ++ e) := by
  obtain ⟨own, ho⟩ := hI.o
  have hS := hI.s
  cases hs with
  | drop1None i v k hi hx =>
    obtain ⟨e1, e2, e3⟩ := finEv_sent i v k
    exact h.frame id e1 e2 e3 rfl rfl
  | drop1Free i v k x hi hx hq =>
    obtain ⟨e1, e2, e3⟩ := finEv_sent i v k
    exact h.frame id e1 e2 e3 rfl rfl
  | drop1Grant i v k x j q l hi hx hq hl =>
    obtain ⟨e1, e2, e3⟩ := finEv_sent i v k
    exact h.frame id e1 e2 e3 rfl rfl
  | drop1Bad i v k x j q hi hx hq hl =>
    obtain ⟨e1, e2, e3⟩ := finEv_sent i v k
    exact h.frame id e1 e2 e3 rfl rfl
  | hold i v x hi =>
    have hx := (ho.snd i x).1 (by rw [hi]; rfl)
    refine h.frame id rfl rfl rfl ?_ ?_
    · apply filterMap_congr'
      intro y hy
      have := (ho.ready y).1 hy
      have : y ≠ x := by rintro rfl; rw [hx.2] at this; cases this.2
      exact set_ne _ _ this
    · have hne : ∀ y, s.rx.held = some y → y ≠ x := by
        rintro y hy rfl; have := (ho.rx y).1 hy; rw [hx.2] at this; cases this.2
      unfold inReceive
      cases hr : s.rx <;> simp only [] <;> (rename_i y; rw [set_ne _ _ (hne y (by rw [hr]; rfl))])
  | written i v x hi =>
    have hv := hS.cwritten i v x hi
    have hq : ∀ b p, queued { s with ready := s.ready ++ [x], bad := b, snd := p } = queued s ++ [v] := by
      simp [queued, hv]
    have e1 : sentVals [Ev.enq i v] = [v] := rfl
    have e2 : recvVals [Ev.enq i v] = [] := rfl
    have e3 : discardedVals [Ev.enq i v] = [] := rfl
    obtain ⟨g1, g2⟩ := h
    constructor
    · intro hd
      simp only [sentVals_append, recvVals_append, e1, e2, List.append_nil, hq]
      rw [g1 hd]; simp only [List.append_assoc]; rfl
    · simp only [sentVals_append, recvVals_append, discardedVals_append, e1, e2, e3, List.append_nil, hq]
      rw [← List.append_assoc]
      exact g2.append_right [v]
  | tr0Take m x q hr hq =>
    obtain ⟨v, hv⟩ := hS.cready x (by rw [hq]; exact List.mem_cons_self)
    have h1 : inReceive s = [] := by unfold inReceive; rw [hr]
    have h2 : queued s = v :: q.filterMap s.slots := by simp [queued, hq, hv]
    obtain ⟨g1, g2⟩ := h
    rw [h1, h2] at g1 g2
    constructor
    · intro hd; have := g1 hd; simpa [inReceive, hv, queued] using this
    · simpa [inReceive, hv, queued] using g2
  | rdrop1Take x q hr hq =>
    obtain ⟨v, hv⟩ := hS.cready x (by rw [hq]; simp)
    have h1 : inReceive s = [] := by unfold inReceive; rw [hr]
    have h2 : queued s = q.filterMap s.slots ++ [v] := by simp [queued, hq, hv]
    have hd : s.rcvDropped = true := by rw [hI.d.iff, hr]; rfl
    obtain ⟨g1, g2⟩ := h
    rw [h1, h2] at g2
    constructor
    · intro hd'; rw [show _ = s.rcvDropped from rfl, hd] at hd'; cases hd'
    · simp [inReceive, hv, queued]
      refine g2.trans ?_
      simp only [List.append_nil, List.append_assoc]
      refine List.Perm.append_left _ (List.Perm.append_left _ ?_)
      exact List.perm_append_comm
  | got m x v hr hv =>
    have hx := (ho.rx x).1 (by rw [hr]; rfl)
    refine h.frame id rfl rfl rfl ?_ ?_
    · apply filterMap_congr'
      intro y hy
      have := (ho.ready y).1 hy
      have : y ≠ x := by rintro rfl; rw [hx.2] at this; cases this.2
      exact set_ne _ _ this
    · simp [inReceive, hr, hv]
  | gotBad m x hr hv =>
    obtain ⟨v, hv'⟩ := hS.cgot x (by rw [hr]; rfl)
    rw [hv] at hv'; cases hv'
  | dgotBad x hr hv =>
    obtain ⟨v, hv'⟩ := hS.cgot x (by rw [hr]; rfl)
    rw [hv] at hv'; cases hv'
  | rdFree m x v hr hq =>
    have h1 : inReceive s = [v] := by unfold inReceive; rw [hr]
    obtain ⟨g1, g2⟩ := h
    rw [h1] at g1 g2
    have e1 : sentVals [Ev.recvd v] = [] := rfl
    have e2 : recvVals [Ev.recvd v] = [v] := rfl
    have e3 : discardedVals [Ev.recvd v] = [] := rfl
    constructor
    · intro hd
      simp only [sentVals_append, recvVals_append, e1, e2, List.append_nil]
      rw [g1 hd]; simp [inReceive, queued]
    · simp only [sentVals_append, recvVals_append, discardedVals_append, e1, e2, e3, List.append_nil]
      refine g2.trans ?_
      simp only [inReceive, queued, List.append_nil, List.append_assoc]
      refine List.Perm.append_left _ ?_
      rw [← List.append_assoc, ← List.append_assoc]
      exact List.Perm.append_right _ List.perm_append_comm
  | rdGrant m x v j q l hr hq hl =>
    have h1 : inReceive s = [v] := by unfold inReceive; rw [hr]
    obtain ⟨g1, g2⟩ := h
    rw [h1] at g1 g2
    have e1 : sentVals [Ev.wokeS j l.w, Ev.recvd v] = [] := rfl
    have e2 : recvVals [Ev.wokeS j l.w, Ev.recvd v] = [v] := rfl
    have e3 : discardedVals [Ev.wokeS j l.w, Ev.recvd v] = [] := rfl
    constructor
    · intro hd
      simp only [sentVals_append, recvVals_append, e1, e2, List.append_nil]
      rw [g1 hd]; simp [inReceive, queued]
    · simp only [sentVals_append, recvVals_append, discardedVals_append, e1, e2, e3, List.append_nil]
      refine g2.trans ?_
      simp only [inReceive, queued, List.append_nil, List.append_assoc]
      refine List.Perm.append_left _ ?_
      rw [← List.append_assoc, ← List.append_assoc]
      exact List.Perm.append_right _ List.perm_append_comm
  | rdBad m x v j q hr hq' hl => have := hI.q.mem j; grind
  | dgot x v hr hv =>
    have hx := (ho.rx x).1 (by rw [hr]; rfl)
    have hd : s.rcvDropped = true := by rw [hI.d.iff, hr]; rfl
    have h1 : inReceive s = [v] := by simp [inReceive, hr, hv]
    have hq : s.ready.filterMap (set s.slots x none) = s.ready.filterMap s.slots := by
      apply filterMap_congr'
      intro y hy
      have := (ho.ready y).1 hy
      have : y ≠ x := by rintro rfl; rw [hx.2] at this; cases this.2
      exact set_ne _ _ this
    obtain ⟨g1, g2⟩ := h
    rw [h1] at g2
    constructor
    · intro hd'; rw [show _ = s.rcvDropped from rfl, hd] at hd'; cases hd'
    · have e1 : sentVals [Ev.discarded v] = [] := rfl
      have e2 : recvVals [Ev.discarded v] = [] := rfl
      have e3 : discardedVals [Ev.discarded v] = [v] := rfl
      simp only [sentVals_append, recvVals_append, discardedVals_append, e1, e2, e3, List.append_nil]
      simpa [inReceive, queued, hq] using g2
  | rdrop0 hr => refine h.frame (by simp) rfl rfl rfl rfl ?_; simp [inReceive, hr]
  | _ =>
    refine h.frame id rfl rfl rfl rfl ?_
    first | rfl | (simp [inReceive, *]; done) | (unfold inReceive; grind)

theorem reach_ordered {n : Nat} {s : St T} {tr : List (Ev T)} (h : Reach n s tr) : Ordered s tr :=
  (reach_induct (ordered_init n) (fun _ _ _ _ hI h ht => ordered_tr hI h ht) h).2

end Verif.Channel
